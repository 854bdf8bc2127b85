import Verif.Spec.Wide
import Verif.Lemmas.Prepare
import Mathlib.Tactic.ByContra
/-!
# Lemmas: circuits on the unlimited register
-/
namespace QCEC.Wide
open QCEC QCEC.Prep QCEC.Spec QCEC.Spec.Wide

/-! ## Wires that are not named -/

/-- Targets that avoid `T` leave it alone. -/
theorem extend_off {k : Nat} {t : Fin k → Nat} {y : Fin k → Bool} {x : Bits} {p : Nat} (h : ∀ i, t i ≠ p) : Function.extend t y x p = x p :=
  Function.extend_apply' _ _ _ (by rintro ⟨i, hi⟩; exact h i hi)

/-- The output at `z0` depends on the input at the states that agree with `z0` on wires that are not named. -/
theorem runS_congr {T : Nat → Prop} : ∀ (l : List WSOp), (∀ s ∈ l, ∀ p, T p → ¬ s.Names p) → ∀ {w1 w2 : Bits → ℂ} {z0 : Bits},
    (∀ z, (∀ p, T p → z p = z0 p) → w1 z = w2 z) →
    ∀ z, (∀ p, T p → z p = z0 p) → l.foldl (fun w s => s.run w) w1 z = l.foldl (fun w s => s.run w) w2 z := by
  intro l
  induction l with
  | nil => intro _ w1 w2 z0 h z hz; exact h z hz
  | cons s r ih =>
    intro hl w1 w2 z0 h z hz
    rw [List.foldl_cons, List.foldl_cons]
    refine ih (fun s' hs' => hl s' (List.mem_cons_of_mem _ hs')) ?_ z hz
    intro z hz
    have hs := hl s List.mem_cons_self
    cases s with
    | gate g =>
      simp only [WSOp.run]
      split
      · refine Finset.sum_congr rfl fun y _ => ?_
        rw [h]
        intro p hp
        rw [extend_off, hz p hp]
        intro i hi
        exact hs p hp (Or.inl ⟨i, hi⟩)
      · exact h z hz
    | swap a b =>
      simp only [WSOp.run]
      refine h _ fun p hp => ?_
      have := hs p hp
      simp only [WSOp.Names, not_or] at this
      rw [Function.comp_apply, Equiv.swap_apply_of_ne_of_ne (Ne.symm this.1) (Ne.symm this.2), hz p hp]
    | barrier _ => exact h z hz

/-- If the input does not depend on wires that are not named, nor does the output. -/
theorem runS_indep {T : Nat → Prop} : ∀ (l : List WSOp), (∀ s ∈ l, ∀ p, T p → ¬ s.Names p) → ∀ {w : Bits → ℂ},
    (∀ z z', (∀ p, ¬ T p → z p = z' p) → w z = w z') →
    ∀ z z', (∀ p, ¬ T p → z p = z' p) → l.foldl (fun w s => s.run w) w z = l.foldl (fun w s => s.run w) w z' := by
  intro l
  induction l with
  | nil => intro _ w h; exact h
  | cons s r ih =>
    intro hl w h z z' hz
    rw [List.foldl_cons]
    refine ih (fun s' hs' => hl s' (List.mem_cons_of_mem _ hs')) ?_ z z' hz
    intro z z' hz
    have hs : ∀ p, s.Names p → ¬ T p := fun p hn hp => hl s List.mem_cons_self p hp hn
    cases s with
    | gate g =>
      simp only [WSOp.run]
      have hc : (∀ c ∈ g.controls, z c.1 = c.2) ↔ ∀ c ∈ g.controls, z' c.1 = c.2 :=
        forall₂_congr fun c hc => by rw [hz c.1 (hs _ (Or.inr ⟨c.2, hc⟩))]
      have ht : z ∘ g.targets = z' ∘ g.targets := by
        funext i
        exact hz _ (hs _ (Or.inl ⟨i, rfl⟩))
      by_cases h1 : ∀ c ∈ g.controls, z c.1 = c.2
      · rw [if_pos h1, if_pos (hc.1 h1)]
        refine Finset.sum_congr rfl fun y _ => ?_
        rw [ht]
        congr 1
        refine h _ _ fun p hp => ?_
        by_cases hi : ∃ i, g.targets i = p
        · classical
          simp only [Function.extend_def, dif_pos hi]
        · rw [Function.extend_apply' _ _ _ hi, Function.extend_apply' _ _ _ hi, hz p hp]
      · rw [if_neg h1, if_neg fun h2 => h1 (hc.2 h2)]
        exact h _ _ hz
    | swap a b =>
      simp only [WSOp.run]
      refine h _ _ fun p hp => ?_
      refine hz _ ?_
      by_cases ha : p = a
      · subst ha; rw [Equiv.swap_apply_left]; exact hs b (Or.inr rfl)
      · by_cases hb : p = b
        · subst hb; rw [Equiv.swap_apply_right]; exact hs a (Or.inl rfl)
        · rw [Equiv.swap_apply_of_ne_of_ne ha hb]; exact hp
    | barrier _ => exact h z z' hz

/-! ## Layouts -/

theorem carrier_eq {c : Circ WOp} (h : CircOk c) {p q : Nat} (hp : (p, q) ∈ c.initialLayout) : carrier c q = p := by
  rw [carrier, (Layout.keyOf_iff h.inj).2 hp]; rfl

theorem carrier_mem {c : Circ WOp} (h : CircOk c) {q : Nat} (hq : q < c.nqubits) : (carrier c q, q) ∈ c.initialLayout := by
  obtain ⟨p, hp⟩ := (h.onto q).2 hq
  rw [carrier_eq h hp]; exact hp

theorem startLabel_eq {c : Circ WOp} (h : CircOk c) {p q : Nat} (hp : (p, q) ∈ c.initialLayout) : startLabel c p = q := by
  rw [startLabel, (Layout.get_iff (Layout.nodup_of_lt h.keys)).2 hp]; rfl

/-- Physical qubits in use. -/
def Key (c : Circ WOp) (p : Nat) : Prop := ∃ q, (p, q) ∈ c.initialLayout

/-! ## Kept qubits -/

/-- The kept qubit with a given new index. -/
theorem exists_kept (R : List Nat) (q' : Nat) : ∃ q, q ∉ R ∧ newIndex R q = q' := by
  have big : ∀ k, ∃ q, q ∉ R ∧ k ≤ newIndex R q := by
    intro k
    induction k with
    | zero =>
      obtain ⟨q, hq⟩ : ∃ q, q ∉ R := by
        refine ⟨R.foldr max 0 + 1, fun h => ?_⟩
        have : ∀ (L : List Nat) x, x ∈ L → x ≤ L.foldr max 0 := by
          intro L
          induction L with
          | nil => intro x hx; cases hx
          | cons a L ih =>
            intro x hx
            rcases List.mem_cons.1 hx with rfl | hx
            · exact Nat.le_max_left _ _
            · exact Nat.le_trans (ih x hx) (Nat.le_max_right _ _)
        have := this R _ h
        omega
      exact ⟨q, hq, Nat.zero_le _⟩
    | succ k ih =>
      obtain ⟨q, hq, hk⟩ := ih
      have : ∃ q2, q < q2 ∧ q2 ∉ R := by
        refine ⟨max (R.foldr max 0) q + 1, by omega, fun h => ?_⟩
        have : ∀ (L : List Nat) x, x ∈ L → x ≤ L.foldr max 0 := by
          intro L
          induction L with
          | nil => intro x hx; cases hx
          | cons a L ih =>
            intro x hx
            rcases List.mem_cons.1 hx with rfl | hx
            · exact Nat.le_max_left _ _
            · exact Nat.le_trans (ih x hx) (Nat.le_max_right _ _)
        have := this R _ h
        omega
      obtain ⟨q2, h1, h2⟩ := this
      have := newIndex_lt h1 hq
      exact ⟨q2, h2, by omega⟩
  obtain ⟨q, hq, hk⟩ := big q'
  -- walk down
  have down : ∀ q, q ∉ R → q' ≤ newIndex R q → ∃ q, q ∉ R ∧ newIndex R q = q' := by
    intro q
    induction q using Nat.strong_induction_on with
    | _ q ih =>
      intro hq hk
      by_cases e : newIndex R q = q'
      · exact ⟨q, hq, e⟩
      · -- some kept qubit below has index one less
        have : ∃ m, m < q ∧ m ∉ R ∧ newIndex R m + 1 = newIndex R q := by
          have step : ∀ m, q' < newIndex R m → ∃ m', m' < m ∧ m' ∉ R ∧ newIndex R m' + 1 = newIndex R m := by
            intro m
            induction m with
            | zero => intro h; simp [newIndex_zero] at h
            | succ m ihm =>
              intro h
              rw [newIndex_succ] at h ⊢
              by_cases hm : m ∈ R
              · rw [if_pos hm] at h ⊢
                obtain ⟨m', h1, h2, h3⟩ := ihm (by omega)
                exact ⟨m', by omega, h2, by omega⟩
              · rw [if_neg hm] at h ⊢
                exact ⟨m, by omega, hm, rfl⟩
          exact step q (by omega)
        obtain ⟨m, h1, h2, h3⟩ := this
        exact ih m h1 h2 (by omega)
  exact down q hq hk

/-- The old label of a kept qubit. -/
noncomputable def oldIndex (R : List Nat) (q' : Nat) : Nat := (exists_kept R q').choose

theorem oldIndex_kept (R : List Nat) (q' : Nat) : oldIndex R q' ∉ R := (exists_kept R q').choose_spec.1

theorem newIndex_oldIndex (R : List Nat) (q' : Nat) : newIndex R (oldIndex R q') = q' := (exists_kept R q').choose_spec.2

theorem oldIndex_newIndex {R : List Nat} {q : Nat} (h : q ∉ R) : oldIndex R (newIndex R q) = q :=
  newIndex_inj (oldIndex_kept R _) h (newIndex_oldIndex R _)

theorem newIndex_lt_iff {R : List Nat} {q : Nat} (h : q ∉ R) (n : Nat) : newIndex R q < newIndex R n ↔ q < n := by
  constructor
  · intro h1
    by_contra h2
    have := newIndex_mono R (Nat.le_of_not_lt h2)
    omega
  · intro h1; exact newIndex_lt h1 h

end QCEC.Wide
