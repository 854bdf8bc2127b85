import Verif.Props.Preparation
import Verif.Props.EndToEndMixed
/-!
# Properties: preparing circuits with different ancillary qubits (C64, C61)
-/
namespace QCEC.Props
open QCEC QCEC.Prep QCEC.Spec QCEC.Spec.Wide QCEC.Spec.ZX QCEC.Wide QCEC.Mgr QCEC.Sem

variable {m n : Nat}

/-- **C64.** The prepared circuits are equal (up to any factor) on the inputs in which the qubits ancillary in both are |0⟩ if and only if the given ones
are. -/
theorem prepare_preserves_common {acts : WOp → Nat → Bool} (hacts : Reliable acts) {cfg : Configuration} {c1 c2 : Circ WOp} (h1 : Runnable c1)
    (h2 : Runnable c2) {m : Made WOp} (h : prepare acts cfg (c1, c2) = .made m) :
    ∀ k, EqualOn (FixedInBoth m.qc1 m.qc2) k m.qc1 m.qc2 ↔ EqualOn (FixedInBoth c1 c2) k c1 c2 := by
  obtain ⟨s1, s2, g1, g2, _⟩ := prepare_made h
  obtain ⟨R, t1, t2, g0, _, k1, k2, ok1, ok2⟩ := strip_idle_qubits acts h1.ok h2.ok
  rw [g1] at g0
  cases g0
  have r1 := runnable_stripped hacts h1 ok1 k1
  have r2 := runnable_stripped hacts h2 ok2 k2
  obtain ⟨_, _, _, _, o1, o2, _, _⟩ := setup_preserves r1 r2 g2
  intro k
  refine Iff.trans ?_ (equalOn_stripped hacts h1 h2 k1 k2 ok1 ok2 (fun _ hq => common_stripped h1.ok h2.ok k1 k2 ok1 ok2 hq) k)
  refine equalOn_congr o1 o2 ?_ k
  obtain ⟨u1, u2, g3, _, _, ga, gb⟩ := setup_ancillaries ok1 ok2
  rw [g2] at g3
  cases g3
  intro q
  by_cases hn : s1.nqubits > s2.nqubits
  · obtain ⟨hs, hp⟩ := ga hn
    exact (common_comm q).trans ((common_setup hp hs q).trans (common_comm q))
  · obtain ⟨hp, hs⟩ := gb (by omega)
    exact common_setup hp hs q

/-- **C64.** The same for the whole constructor with the optimization passes. -/
theorem construct_preserves_common {acts : WOp → Nat → Bool} (hacts : Reliable acts) {P : Passes (Circ WOp)} {cfg : Configuration}
    {c1 c2 : Circ WOp} (h1 : Runnable c1) (h2 : Runnable c2) (hP : ∀ p ∈ planned cfg.optimizations true, Faithful P p) {m : Made WOp}
    (h : Prep.construct acts P cfg c1 c2 = .made m) :
    ∀ k, EqualOn (FixedInBoth m.qc1 m.qc2) k m.qc1 m.qc2 ↔ EqualOn (FixedInBoth c1 c2) k c1 c2 := by
  have main : ∀ a b : Circ WOp, Runnable a → Runnable b → a.nqubits = c1.nqubits → b.nqubits = c2.nqubits →
      (∀ q, a.isAncillary q = c1.isAncillary q) → (∀ q, b.isAncillary q = c2.isAncillary q) →
      (∀ v x, Wide.output a v x = Wide.output c1 v x) → (∀ v x, Wide.output b v x = Wide.output c2 v x) →
      prepare acts cfg (a, b) = .made m →
      ∀ k, EqualOn (FixedInBoth m.qc1 m.qc2) k m.qc1 m.qc2 ↔ EqualOn (FixedInBoth c1 c2) k c1 c2 := by
    intro a b ha hb na nb aa ab oa ob hm k
    refine (prepare_preserves_common hacts ha hb hm k).trans (equalOn_congr oa ob ?_ k)
    intro q
    unfold FixedInBoth
    rw [na, nb, aa, ab]
  have sub : ∀ d, ∀ p ∈ planned cfg.optimizations d, Faithful P p := by
    intro d p hp
    refine hP p ?_
    cases d
    · simp only [planned, Bool.false_eq_true, if_false, List.nil_append] at hp
      simp only [planned, if_true]
      exact List.mem_append_right _ hp
    · exact hp
  unfold Prep.construct at h
  split at h
  · rw [passes_exact] at h
    by_cases he : P.empty c1 = true ∧ P.empty c2 = true
    · rw [if_pos he] at h
      exact main c1 c2 h1 h2 rfl rfl (fun _ => rfl) (fun _ => rfl) (fun _ _ => rfl) (fun _ _ => rfl) h
    · rw [if_neg he] at h
      by_cases hd : (P.dynamic c1 = true ∨ P.dynamic c2 = true) ∧ cfg.optimizations.transformDynamicCircuit = false
      · rw [if_pos hd] at h
        exact absurd h (by simp)
      · rw [if_neg hd] at h
        obtain ⟨a1, a2, a3, a4⟩ := faithful_list _ (sub (P.dynamic c1)) c1 h1
        obtain ⟨b1, b2, b3, b4⟩ := faithful_list _ (sub (P.dynamic c2)) c2 h2
        exact main _ _ a1 b1 a2 b2 a3 b3 a4 b4 h
  · exact main c1 c2 h1 h2 rfl rfl (fun _ => rfl) (fun _ => rfl) (fun _ _ => rfl) (fun _ _ => rfl) h

/-- Every qubit of the prepared circuits is a qubit of the given ones, which is fixed if and only if it is. -/
theorem construct_fixed {acts : WOp → Nat → Bool} (hacts : Reliable acts) {P : Passes (Circ WOp)} {cfg : Configuration}
    {c1 c2 : Circ WOp} (h1 : Runnable c1) (h2 : Runnable c2) (hP : ∀ p ∈ planned cfg.optimizations true, Faithful P p) {m : Made WOp}
    (h : Prep.construct acts P cfg c1 c2 = .made m) :
    ∃ f : Nat → Nat, ∀ q, (Fixed m.qc1 m.qc2 q ↔ Fixed c1 c2 (f q)) ∧ (FixedInBoth m.qc1 m.qc2 q ↔ FixedInBoth c1 c2 (f q)) ∧
        (q < m.qc1.nqubits → f q < max c1.nqubits c2.nqubits) := by
  have main : ∀ a b : Circ WOp, Runnable a → Runnable b → a.nqubits = c1.nqubits → b.nqubits = c2.nqubits →
      (∀ q, a.isAncillary q = c1.isAncillary q) → (∀ q, b.isAncillary q = c2.isAncillary q) → prepare acts cfg (a, b) = .made m →
      ∃ f : Nat → Nat, ∀ q, (Fixed m.qc1 m.qc2 q ↔ Fixed c1 c2 (f q)) ∧ (FixedInBoth m.qc1 m.qc2 q ↔ FixedInBoth c1 c2 (f q)) ∧
        (q < m.qc1.nqubits → f q < max c1.nqubits c2.nqubits) := by
    intro a b h1 h2 na nb aa ab h
    obtain ⟨s1, s2, g1, g2, _⟩ := prepare_made h
    obtain ⟨R, t1, t2, g0, _, k1, k2, ok1, ok2⟩ := strip_idle_qubits acts h1.ok h2.ok
    rw [g1] at g0
    cases g0
    obtain ⟨u1, u2, g3, wd, _, ga, gb⟩ := setup_ancillaries ok1 ok2
    rw [g2] at g3
    cases g3
    refine ⟨oldIndex R, fun q => ?_⟩
    have hlt : q < m.qc1.nqubits → oldIndex R q < max c1.nqubits c2.nqubits := by
      intro hq
      rw [wd, k1.width, k2.width, na, nb] at hq
      refine (newIndex_lt_iff (oldIndex_kept R q) _).1 ?_
      rw [newIndex_oldIndex]
      rcases Nat.le_total c1.nqubits c2.nqubits with hle | hle
      · rwa [Nat.max_eq_right (newIndex_mono R hle), ← Nat.max_eq_right hle] at hq
      · rwa [Nat.max_eq_left (newIndex_mono R hle), ← Nat.max_eq_left hle] at hq
    have e1 : Fixed c1 c2 (oldIndex R q) ↔ Fixed a b (oldIndex R q) := by unfold Fixed; rw [na, nb, aa, ab]
    have e2 : FixedInBoth c1 c2 (oldIndex R q) ↔ FixedInBoth a b (oldIndex R q) := by unfold FixedInBoth; rw [na, nb, aa, ab]
    have f1 := fixed_stripped h1.ok h2.ok k1 k2 ok1 ok2 (oldIndex_kept R q)
    have f2 := common_stripped h1.ok h2.ok k1 k2 ok1 ok2 (oldIndex_kept R q)
    rw [newIndex_oldIndex] at f1 f2
    rw [e1, e2, ← f1, ← f2]
    by_cases hn : s1.nqubits > s2.nqubits
    · obtain ⟨hs, hp⟩ := ga hn
      exact ⟨(fixed_comm q).trans ((fixed_setup (by omega) hp hs q).trans (fixed_comm q)),
        (common_comm q).trans ((common_setup hp hs q).trans (common_comm q)), hlt⟩
    · obtain ⟨hp, hs⟩ := gb (by omega)
      exact ⟨fixed_setup (by omega) hp hs q, common_setup hp hs q, hlt⟩
  have sub : ∀ d, ∀ p ∈ planned cfg.optimizations d, Faithful P p := by
    intro d p hp
    refine hP p ?_
    cases d
    · simp only [planned, Bool.false_eq_true, if_false, List.nil_append] at hp
      simp only [planned, if_true]
      exact List.mem_append_right _ hp
    · exact hp
  unfold Prep.construct at h
  split at h
  · rw [passes_exact] at h
    by_cases he : P.empty c1 = true ∧ P.empty c2 = true
    · rw [if_pos he] at h
      exact main c1 c2 h1 h2 rfl rfl (fun _ => rfl) (fun _ => rfl) h
    · rw [if_neg he] at h
      by_cases hd : (P.dynamic c1 = true ∨ P.dynamic c2 = true) ∧ cfg.optimizations.transformDynamicCircuit = false
      · rw [if_pos hd] at h
        exact absurd h (by simp)
      · rw [if_neg hd] at h
        obtain ⟨a1, a2, a3, a4⟩ := faithful_list _ (sub (P.dynamic c1)) c1 h1
        obtain ⟨b1, b2, b3, b4⟩ := faithful_list _ (sub (P.dynamic c2)) c2 h2
        exact main _ _ a1 b1 a2 b2 a3 b3 h
  · exact main c1 c2 h1 h2 rfl rfl (fun _ => rfl) (fun _ => rfl) h

/-- What the counted versions of the prepared circuits do, in terms of the given circuits.  If the ZX-calculus (simulation) is used, the ancillary qubits
of the first one have to be its last ones. -/
theorem mixed_constructed {acts : WOp → Nat → Bool} (hacts : Reliable acts) {P : Passes (Circ WOp)} {cfg : Configuration}
    {c1 c2 : Circ WOp} (h1 : Runnable c1) (h2 : Runnable c2) (hP : ∀ p ∈ planned cfg.optimizations true, Faithful P p) {M : Made WOp}
    (h : Prep.construct acts P cfg c1 c2 = .made M) (S : Mixed m n) {e1 e2 : Nat → Fin n} (hn1 : Numbered e1 M.qc1 S.qc1)
    (hn2 : Numbered e2 M.qc2 S.qc2) :
    ∀ k b, (b = true → ∀ q, q < n → M.qc1.isAncillary q = decide (m ≤ q)) →
      (SameUpTo k (S.someAnc b) S.qc1 S.ω1 S.qc2 S.ω2 ↔ EqualUpTo k c1 c2) ∧
      (SameUpTo k (S.bothAnc b) S.qc1 S.ω1 S.qc2 S.ω2 ↔ EqualOn (FixedInBoth c1 c2) k c1 c2) := by
  obtain ⟨w1, w2, _, ke⟩ := construct_preserves hacts h1 h2 hP h
  have kc := construct_preserves_common hacts h1 h2 hP h
  intro k b hb
  rw [S.wf1.labels, S.wf2.labels]
  refine ⟨(sameOn_numbered w1 w2 hn1 hn2 (S.someAnc b) (F := Fixed M.qc1 M.qc2) ?_ k).trans (ke k),
    (sameOn_numbered w1 w2 hn1 hn2 (S.bothAnc b) (F := FixedInBoth M.qc1 M.qc2) ?_ k).trans (kc k)⟩
  · intro q hq
    have e := marks_get n (fun q => S.qc1.ancillary.getD q false || S.qc2.ancillary.getD q false || (b && decide (m ≤ q))) ⟨q, hq⟩
    simp only at e
    unfold Fixed
    rw [Mixed.someAnc, e, hn1.ancillary q hq, hn2.ancillary q hq, hn1.width, hn2.width]
    cases b with
    | false => simp; omega
    | true => rw [← hb rfl q hq]; cases M.qc1.isAncillary q <;> simp <;> omega
  · intro q hq
    have e := marks_get n (fun q => S.qc1.ancillary.getD q false && S.qc2.ancillary.getD q false && (!b || decide (m ≤ q))) ⟨q, hq⟩
    simp only at e
    unfold FixedInBoth
    rw [Mixed.bothAnc, e, hn1.ancillary q hq, hn2.ancillary q hq, hn1.width, hn2.width]
    cases b with
    | false => simp; omega
    | true => rw [← hb rfl q hq]; cases M.qc1.isAncillary q <;> simp <;> omega

end QCEC.Props
