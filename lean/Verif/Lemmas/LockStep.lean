import Verif.Lemmas.Misled
/-!
# The alternating checker on two copies of a circuit

If the gates of both circuits are the same, in the same order, everything but the SWAPs is cancelled, in lock-step, whatever qubits the gates act on and even
if compound operations hide SWAPs.
-/
namespace QCEC.Props
open QCEC QCEC.Mgr QCEC.Prep QCEC.Spec QCEC.Spec.Wide QCEC.Wide QCEC.Sem QCEC.DD
open scoped Matrix

variable {n : Nat}

/-- Both copies have the same labels on the wires in `K`. -/
def Lock (K : Nat → Prop) (e1 e2 : Nat → Fin n) (σ1 σ2 : Equiv.Perm (Fin n)) : Prop := ∀ p, K p → σ1 (e1 p) = σ2 (e2 p)

section
variable {K : Nat → Prop} {e1 e2 : Nat → Fin n} (i1 : ∀ p p', K p → K p' → e1 p = e1 p' → p = p') (i2 : ∀ p p', K p → K p' → e2 p = e2 p' → p = p')
include i1 i2

theorem lock_swap {σ1 σ2 : Equiv.Perm (Fin n)} (h : Lock K e1 e2 σ1 σ2) {a b : Nat} (ha : K a) (hb : K b) :
    Lock K e1 e2 (σ1 * Equiv.swap (e1 a) (e1 b)) (σ2 * Equiv.swap (e2 a) (e2 b)) := by
  intro p hp
  obtain ⟨k, s1⟩ := swap_on i1 ha hb hp
  obtain ⟨_, s2⟩ := swap_on i2 ha hb hp
  rw [Equiv.Perm.mul_apply, Equiv.Perm.mul_apply, ← s1, ← s2]
  exact h _ k

/-- Applying the SWAPs at the beginning, with or without controls, to both copies. -/
theorem lock_swaps (garb) : ∀ (R : List WOp), (∀ o ∈ R, ∀ p, o.Names p → K p) → (∀ o ∈ R, ∀ s ∈ o.parts, s.Proper) → ∀ {σ1 σ2 : Equiv.Perm (Fin n)}, Lock K e1 e2 σ1 σ2 →
    ∃ (T : List WOp) (X : Mat n) (τ1 τ2 : Equiv.Perm (Fin n)), X * Xᴴ = 1 ∧ Lock K e1 e2 τ1 τ2 ∧ T <:+ R ∧ (∀ o r, T = o :: r → isSwap o = false) ∧
      (∀ d, applySwapsAux (exactMatrix n garb) .left (R.map (WOp.on e1)) σ1 d = ({ rest := T.map (WOp.on e1), perm := τ1 }, X * d)) ∧
      ∀ d, applySwapsAux (exactMatrix n garb) .right (R.map (WOp.on e2)) σ2 d = ({ rest := T.map (WOp.on e2), perm := τ2 }, d * Xᴴ) := by
  intro R
  induction R with
  | nil => exact fun _ _ σ1 σ2 h => ⟨[], 1, σ1, σ2, by simp, h, List.suffix_refl _, by simp, by simp [applySwapsAux], by simp [applySwapsAux]⟩
  | cons o r ih =>
    intro hK hp σ1 σ2 h
    have hKr : ∀ o ∈ r, ∀ p, o.Names p → K p := fun o' ho' => hK o' (List.mem_cons_of_mem _ ho')
    have hpr : ∀ o ∈ r, ∀ s ∈ o.parts, s.Proper := fun o' ho' => hp o' (List.mem_cons_of_mem _ ho')
    have ex1 : ∀ x, (exactMatrix n garb).isSwap x = Op.isSwap x := fun _ => rfl
    cases hs : isSwap o with
    | false =>
      refine ⟨o :: r, 1, σ1, σ2, by simp, h, List.suffix_refl _, fun o' r' e => by cases e; exact hs, fun d => ?_, fun d => ?_⟩
      · rw [List.map_cons]
        unfold applySwapsAux
        rw [ex1, isSwap_on, hs]
        simp
      · rw [List.map_cons]
        unfold applySwapsAux
        rw [ex1, isSwap_on, hs]
        simp
    | true =>
      -- a SWAP is tracked, a controlled one is multiplied to both sides
      have step : ∃ (Y : Mat n) (μ1 μ2 : Equiv.Perm (Fin n)), Y * Yᴴ = 1 ∧ Lock K e1 e2 μ1 μ2 ∧ (o.on e1).getDD σ1 = (Y, μ1) ∧ (o.on e2).getInv σ2 = (Yᴴ, μ2) := by
        cases o with
        | compound l => simp [isSwap] at hs
        | simple s =>
          have hKs : ∀ p, s.Names p → K p := fun p hn => hK _ List.mem_cons_self p ⟨s, by simp [WOp.parts], hn⟩
          cases s with
          | barrier qs => simp [isSwap] at hs
          | swap a b =>
            refine ⟨1, _, _, by simp, lock_swap i1 i2 h (hKs a ?_) (hKs b ?_), rfl, ?_⟩
            · exact Or.inl rfl
            · exact Or.inr rfl
            · rw [Matrix.conjTranspose_one]; rfl
          | gate g =>
            have hm : (g.on e1).map σ1 = (g.on e2).map σ2 := by
              unfold WGate.on Gate.map
              have a1 : (fun i => σ1 ((e1 ∘ g.targets) i)) = fun i => σ2 ((e2 ∘ g.targets) i) :=
                funext fun i => h _ (hKs _ (Or.inl ⟨i, rfl⟩))
              have a2 : ((g.controls.map fun c => (e1 c.1, c.2)).map fun c => (σ1 c.1, c.2)) = (g.controls.map fun c => (e2 c.1, c.2)).map fun c => (σ2 c.1, c.2) := by
                rw [List.map_map, List.map_map]
                exact List.map_congr_left fun c hc => by
                  simp only [Function.comp_apply]
                  rw [h c.1 (hKs _ (Or.inr ⟨c.2, hc⟩))]
              simp only
              rw [a1, a2]
            have hv : (WSOp.on e1 (.gate g)).Valid := valid_on i1 hKs (hp _ List.mem_cons_self _ (by simp [WOp.parts]))
            have hu : ((g.on e1).map σ1).mat * ((g.on e1).map σ1).matᴴ = 1 := by
              rw [gate_map, view_ct, view_mul, (g.on e1).mat_unitary hv, view_one]
            refine ⟨((g.on e1).map σ1).mat, σ1, σ2, hu, h, rfl, ?_⟩
            rw [hm]; rfl
      obtain ⟨Y, μ1, μ2, hY, hμ, g1, g2⟩ := step
      obtain ⟨T, X, τ1, τ2, hX, hτ, hT, hh, f1, f2⟩ := ih hKr hpr hμ
      refine ⟨T, X * Y, τ1, τ2, mul_unitary _ _ hX hY, hτ, hT.trans (List.suffix_cons _ _), hh, fun d => ?_, fun d => ?_⟩
      · rw [List.map_cons]
        unfold applySwapsAux
        rw [ex1, isSwap_on, hs]
        have : (exactMatrix n garb).applyOp .left (o.on e1) σ1 d = (μ1, Y * d) := by
          unfold Backend.applyOp
          show (let (m, p') := (o.on e1).getDD σ1; (p', m * d)) = _
          rw [g1]
        rw [this]
        simp only [if_true]
        rw [f1, Matrix.mul_assoc]
      · rw [List.map_cons]
        unfold applySwapsAux
        rw [ex1, isSwap_on, hs]
        have : (exactMatrix n garb).applyOp .right (o.on e2) σ2 d = (μ2, d * Yᴴ) := by
          unfold Backend.applyOp
          show (let (m, p') := (o.on e2).getInv σ2; (p', d * m)) = _
          rw [g2]
        rw [this]
        simp only [if_true]
        rw [f2, Matrix.conjTranspose_mul, Matrix.mul_assoc]

/-- The main loop. -/
theorem lock_loop (garb) (isId : Mat n → Bool) (hid : isId 1 = true) (opEq : Op n → Op n → Bool) (f : Scheme (Op n) (Equiv.Perm (Fin n))) (stop : Nat → Bool)
    (hm : Mono stop) : ∀ (fuel : Nat) (R : List WOp), (∀ o ∈ R, ∀ p, o.Names p → K p) → (∀ o ∈ R, ∀ s ∈ o.parts, s.Proper) →
    (∀ o ∈ R, opEq (o.on e1) (o.on e2) = true) → R.length + 2 ≤ fuel → ∀ (s : Alt (Op n) (Equiv.Perm (Fin n)) (Mat n) (Mat n)),
    s.c1.rest = R.map (WOp.on e1) → s.c2.rest = R.map (WOp.on e2) → Lock K e1 e2 s.c1.perm s.c2.perm → s.d = 1 →
    ∃ s', altLoop (exactMatrix n garb) isId opEq (.counts f) stop fuel s = .ok s' ∧
      (stop s'.polls = true ∨ s'.c1.rest = [] ∧ s'.c2.rest = [] ∧ Lock K e1 e2 s'.c1.perm s'.c2.perm ∧ s'.d = 1) := by
  -- a checker told to stop leaves the loop
  have stopped : ∀ (fuel : Nat) (s : Alt (Op n) (Equiv.Perm (Fin n)) (Mat n) (Mat n)), 1 ≤ fuel → stop s.polls = true →
      ∃ s', altLoop (exactMatrix n garb) isId opEq (.counts f) stop fuel s = .ok s' ∧ stop s'.polls = true := by
    intro fuel s hf hs
    obtain ⟨fuel, rfl⟩ : ∃ k, fuel = k + 1 := ⟨fuel - 1, by omega⟩
    unfold altLoop
    by_cases hfin : (s.c1.finished || s.c2.finished) = true
    · rw [if_pos hfin]; exact ⟨_, rfl, hs⟩
    · rw [if_neg hfin, if_pos hs]
      exact ⟨_, rfl, hm _ _ (Nat.le_succ _) hs⟩
  intro fuel
  induction fuel with
  | zero => intro R _ _ _ h; omega
  | succ fuel ih =>
    intro R hK hp heq hlen s r1 r2 hl hd
    unfold altLoop
    cases R with
    | nil =>
      rw [if_pos (by simp [Cur.finished, r1])]
      exact ⟨_, rfl, Or.inr ⟨r1, r2, hl, hd⟩⟩
    | cons o R =>
      rw [if_neg (by simp [Cur.finished, r1, r2])]
      by_cases h0 : stop s.polls = true
      · rw [if_pos h0]
        exact ⟨_, rfl, Or.inl (hm _ _ (Nat.le_succ _) h0)⟩
      rw [if_neg h0]
      obtain ⟨T, X, τ1, τ2, hX, hτ, hT, hh, f1, f2⟩ := lock_swaps i1 i2 garb (o :: R) hK hp hl
      have k1 : applySwaps (exactMatrix n garb) .left s.c1 s.d = ({ rest := T.map (WOp.on e1), perm := τ1 }, X) := by
        unfold applySwaps
        rw [r1, f1, hd, Matrix.mul_one]
      have k2 : applySwaps (exactMatrix n garb) .right s.c2 X = ({ rest := T.map (WOp.on e2), perm := τ2 }, 1) := by
        unfold applySwaps
        rw [r2, f2, hX]
      simp only [k1, k2]
      have hTm : ∀ o' ∈ T, o' ∈ o :: R := fun o' ho' => hT.subset ho'
      have hTl : T.length ≤ R.length + 1 := hT.length_le
      cases T with
      | nil =>
        rw [if_pos (by simp [Cur.finished])]
        exact ih [] (by simp) (by simp) (by simp) (by simp at hlen ⊢; omega) _ rfl rfl hτ rfl
      | cons a T =>
        have ha : a ∈ o :: R := hTm a List.mem_cons_self
        rw [if_neg (by simp [Cur.finished])]
        by_cases h1 : stop (s.polls + 1) = true
        · rw [if_pos h1]
          simp only [List.length_cons] at hlen
          obtain ⟨s', hs', hst⟩ := stopped fuel { s with c1 := { rest := (a :: T).map (WOp.on e1), perm := τ1 }, c2 := { rest := (a :: T).map (WOp.on e2), perm := τ2 }, d := 1, polls := s.polls + 1 + 1 } (by omega)
            (hm _ _ (Nat.le_succ _) h1)
          exact ⟨s', hs', Or.inl hst⟩
        rw [if_neg h1]
        have hg : (isId (1 : Mat n) && gatesAreIdentical opEq ({ rest := (a :: T).map (WOp.on e1), perm := τ1 } : Cur (Op n) (Equiv.Perm (Fin n)))
            { rest := (a :: T).map (WOp.on e2), perm := τ2 }) = true := by
          rw [hid, Bool.true_and]
          unfold gatesAreIdentical
          exact heq a ha
        rw [if_pos hg]
        simp only [List.length_cons] at hlen hTl
        exact ih T (fun o' ho' => hK o' (hTm o' (List.mem_cons_of_mem _ ho'))) (fun o' ho' => hp o' (hTm o' (List.mem_cons_of_mem _ ho')))
          (fun o' ho' => heq o' (hTm o' (List.mem_cons_of_mem _ ho'))) (by omega) _ rfl rfl hτ rfl

/-- Moving both copies to the same output permutation. -/
theorem lock_output : ∀ (out : Layout) (o1 o2 : List (Fin n × Fin n)), o1.map (fun t => (t.1, t.2.val)) = out.map (fun t => (e1 t.1, t.2)) →
    o2.map (fun t => (t.1, t.2.val)) = out.map (fun t => (e2 t.1, t.2)) → (∀ t ∈ out, K t.1) → ∀ {σ1 σ2 : Equiv.Perm (Fin n)}, Lock K e1 e2 σ1 σ2 →
    ∃ Y : Mat n, Y * Yᴴ = 1 ∧ (∀ d, (changePerm (fun a b d => swapMat a b * d) d σ1 o1).1 = Y * d) ∧
      ∀ d, (changePerm (fun a b d => d * swapMat a b) d σ2 o2).1 = d * Yᴴ := by
  intro out
  induction out with
  | nil =>
    intro o1 o2 h1 h2 _ σ1 σ2 _
    simp only [List.map_nil, List.map_eq_nil_iff] at h1 h2
    subst h1; subst h2
    exact ⟨1, by simp, by simp [changePerm], by simp [changePerm]⟩
  | cons t out ih =>
    intro o1 o2 h1 h2 hK σ1 σ2 hl
    rw [List.map_cons, List.map_eq_cons_iff] at h1 h2
    obtain ⟨t1, l1, rfl, g1, h1⟩ := h1
    obtain ⟨t2, l2, rfl, g2, h2⟩ := h2
    have e1' : t1.1 = e1 t.1 := congrArg Prod.fst g1
    have e2' : t2.1 = e2 t.1 := congrArg Prod.fst g2
    have e3 : t1.2 = t2.2 := Fin.ext ((congrArg Prod.snd g1).trans (congrArg Prod.snd g2).symm)
    have hk := hK t List.mem_cons_self
    have hσ : σ1 t1.1 = σ2 t2.1 := by rw [e1', e2']; exact hl _ hk
    have hK' : ∀ t ∈ out, K t.1 := fun t ht => hK t (List.mem_cons_of_mem _ ht)
    by_cases hc : σ1 t1.1 = t1.2
    · obtain ⟨Y, hY, f1, f2⟩ := ih l1 l2 h1 h2 hK' hl
      refine ⟨Y, hY, fun d => ?_, fun d => ?_⟩
      · unfold changePerm at f1 ⊢
        rw [List.foldl_cons]
        have : changePermStep (fun a b d => swapMat a b * d) (d, σ1) t1 = (d, σ1) := by unfold changePermStep; simp only [if_pos hc]
        rw [this]; exact f1 d
      · unfold changePerm at f2 ⊢
        rw [List.foldl_cons]
        have : changePermStep (fun a b d => d * swapMat a b) (d, σ2) t2 = (d, σ2) := by unfold changePermStep; simp only [if_pos (show σ2 t2.1 = t2.2 by rw [← hσ, hc, e3])]
        rw [this]; exact f2 d
    · have hl' : Lock K e1 e2 (Equiv.swap (σ1 t1.1) t1.2 * σ1) (Equiv.swap (σ2 t2.1) t2.2 * σ2) := by
        intro p hp
        rw [Equiv.Perm.mul_apply, Equiv.Perm.mul_apply, hl p hp, hσ, e3]
      obtain ⟨Y, hY, f1, f2⟩ := ih l1 l2 h1 h2 hK' hl'
      refine ⟨Y * swapMat (σ1 t1.1) t1.2, mul_unitary _ _ hY (swapMat_unitary _ _), fun d => ?_, fun d => ?_⟩
      · unfold changePerm at f1 ⊢
        rw [List.foldl_cons]
        have : changePermStep (fun a b d => swapMat a b * d) (d, σ1) t1 = (swapMat (σ1 t1.1) t1.2 * d, Equiv.swap (σ1 t1.1) t1.2 * σ1) := by
          unfold changePermStep; simp only [if_neg hc]
        rw [this, f1, Matrix.mul_assoc]
      · unfold changePerm at f2 ⊢
        rw [List.foldl_cons]
        have hc2 : ¬ σ2 t2.1 = t2.2 := by rw [← hσ, ← e3]; exact hc
        have : changePermStep (fun a b d => d * swapMat a b) (d, σ2) t2 = (d * swapMat (σ2 t2.1) t2.2, Equiv.swap (σ2 t2.1) t2.2 * σ2) := by
          unfold changePermStep; simp only [if_neg hc2]
        have hct : (swapMat (σ1 t1.1) t1.2 : Mat n)ᴴ = swapMat (σ2 t2.1) t2.2 := by
          rw [hσ, e3]
          ext x y
          simp only [Matrix.conjTranspose_apply, swapMat]
          have : y = x ∘ Equiv.swap (σ2 t2.1) t2.2 ↔ x = y ∘ Equiv.swap (σ2 t2.1) t2.2 := by
            constructor <;> (rintro rfl; funext q; simp)
          by_cases hx : x = y ∘ Equiv.swap (σ2 t2.1) t2.2
          · rw [if_pos hx, if_pos (this.2 hx), star_one]
          · rw [if_neg hx, if_neg (fun h => hx (this.1 h)), star_zero]
        rw [this, f2, Matrix.conjTranspose_mul, hct, Matrix.mul_assoc]
end

/-- **The alternating checker on two copies of a circuit** that start with the identity: it is stopped, or ends with the identity. -/
theorem lock_run {e1 e2 : Nat → Fin n} {c : Circ WOp} {qc1 qc2 : QC n} (w : Wired c) (h1 : Numbered e1 c qc1) (h2 : Numbered e2 c qc2) (garb)
    (isId : Mat n → Bool) (hid : isId 1 = true) (opEq : Op n → Op n → Bool) (hop : ∀ a ∈ c.ops, opEq (a.on e1) (a.on e2) = true)
    (f : Scheme (Op n) (Equiv.Perm (Fin n))) (verdict : Mat n → Criterion) (stop : Nat → Bool) (hm : Mono stop) (prev : Criterion) (fuel : Nat)
    (hf : qc1.ops.length + qc2.ops.length + 2 ≤ fuel) :
    ∃ v s, runAlt (exactMatrix n garb) isId opEq (.counts f) verdict stop prev qc1 qc2 1 fuel = .ok (v, s) ∧
      (stop s.polls = true ∧ v = prev ∨ v = verdict 1) := by
  have i1 : ∀ p p', (∃ q, (p, q) ∈ c.initialLayout) → (∃ q, (p', q) ∈ c.initialLayout) → e1 p = e1 p' → p = p' := by
    rintro p p' ⟨q, hq⟩ ⟨q', hq'⟩ he
    exact h1.inj p p' q q' hq hq' he
  have i2 : ∀ p p', (∃ q, (p, q) ∈ c.initialLayout) → (∃ q, (p', q) ∈ c.initialLayout) → e2 p = e2 p' → p = p' := by
    rintro p p' ⟨q, hq⟩ ⟨q', hq'⟩ he
    exact h2.inj p p' q q' hq hq' he
  have hl : Lock (fun p => ∃ q, (p, q) ∈ c.initialLayout) e1 e2 qc1.initialLayout qc2.initialLayout := by
    rintro p ⟨q, hq⟩
    exact Fin.ext ((h1.initial _ _ hq).trans (h2.initial _ _ hq).symm)
  obtain ⟨s, hs, hr⟩ := lock_loop i1 i2 garb isId hid opEq f stop hm fuel c.ops w.inside w.proper hop
    (by rw [h1.ops, List.length_map] at hf; omega) { c1 := .start qc1, c2 := .start qc2, d := 1, polls := 0 } h1.ops h2.ops hl rfl
  unfold runAlt
  rw [hs]
  simp only
  have hp : (altPostprocess (exactMatrix n garb) stop qc1 qc2 (altFinish (exactMatrix n garb) stop s)).polls = s.polls + 1 + 1 := rfl
  by_cases hst : stop (s.polls + 1 + 1) = true
  · rw [hp, if_pos hst]
    exact ⟨_, _, rfl, Or.inl ⟨by rw [hp]; exact hst, rfl⟩⟩
  · rw [hp, if_neg hst]
    have n0 : stop s.polls ≠ true := fun h => hst (hm _ _ (by omega) h)
    have n1 : stop (s.polls + 1) ≠ true := fun h => hst (hm _ _ (by omega) h)
    obtain ⟨f1, f2, fl, fd⟩ := hr.resolve_left n0
    refine ⟨_, _, rfl, Or.inr (congrArg verdict ?_)⟩
    have t1 : finishTask (exactMatrix n garb) .left s.c1 s.d = (s.c1, s.d) := by
      unfold finishTask
      rw [dif_neg (by simp [Cur.finished, f1])]
    have t2 : finishTask (exactMatrix n garb) .right s.c2 s.d = (s.c2, s.d) := by
      unfold finishTask
      rw [dif_neg (by simp [Cur.finished, f2])]
    have hfin : altFinish (exactMatrix n garb) stop s = { s with polls := s.polls + 1 } := by
      unfold altFinish
      simp only [t1, if_neg n0, t2]
    rw [hfin]
    unfold altPostprocess
    simp only [if_neg n1]
    obtain ⟨Y, hY, g1, g2⟩ := lock_output i1 i2 c.outputPermutation qc1.outputPermutation qc2.outputPermutation h1.output h2.output
      (fun t ht => w.outInside t.1 t.2 ht) fl
    have b1 : ∀ d σ tgt, (exactMatrix n garb).changePerm Dir.left.regular d σ tgt = changePerm (fun a b d => swapMat a b * d) d σ tgt := fun _ _ _ => rfl
    have b2 : ∀ d σ tgt, (exactMatrix n garb).changePerm Dir.right.regular d σ tgt = changePerm (fun a b d => d * swapMat a b) d σ tgt := fun _ _ _ => rfl
    rw [b1, b2, g2, g1, fd, Matrix.mul_one, hY]

end QCEC.Props
