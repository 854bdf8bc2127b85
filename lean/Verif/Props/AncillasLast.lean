import Verif.Spec.VerifyEndToEnd
import Verif.Props.PreparationMixed
/-!
# Properties: ancillary qubits that are the last ones stay the last ones (C64)
-/
namespace QCEC.Props
open QCEC QCEC.Prep QCEC.Spec QCEC.Spec.Wide QCEC.Wide QCEC.Sem

/-- The flags cover the qubits, and the number of ancillary qubits is right. -/
structure Counted {α : Type} (c : Circ α) : Prop where
  length : c.ancillary.length = c.nqubits
  count : c.ancillary.count true = c.nancillae

theorem setup_counted {α : Type} {qc1 qc2 r1 r2 : Circ α} (h1 : CircOk qc1) (h2 : CircOk qc2) (hr : setupAncillaries qc1 qc2 = some (r1, r2)) :
    Counted r1 ∧ Counted r2 := by
  have key : ∀ {L S l s : Circ α}, CircOk L → CircOk S → S.nqubits ≤ L.nqubits → setupPair L S = some (l, s) → Counted l ∧ Counted s := by
    intro L S l s hL hS hn h
    obtain ⟨c, c', removed, g1, g2, g3, g4, _, g6⟩ := surplus hL S.nqubits (L.nqubits - S.nqubits) (by omega)
      (S.addAncillaryRegister (L.nqubits - S.nqubits))
    rw [setupPair, g1] at h
    simp only [g2, Option.some.injEq, Prod.mk.injEq] at h
    obtain ⟨rfl, rfl⟩ := h
    obtain ⟨p1, p2, _, _⟩ := padded hS (L.nqubits - S.nqubits)
    refine ⟨⟨g4.trans g3.width.symm, g6⟩, p2.trans p1.width.symm, ?_⟩
    rw [foldl_setGarbage]
    simp [Circ.addAncillaryRegister, hS.count]
  unfold setupAncillaries onPair at hr
  by_cases h : qc1.nqubits > qc2.nqubits
  · rw [if_pos h] at hr
    exact key h1 h2 (by omega) hr
  · rw [if_neg h] at hr
    cases hp : setupPair qc2 qc1 with
    | none => rw [hp] at hr; exact absurd hr (by simp)
    | some x =>
      obtain ⟨l, s⟩ := x
      rw [hp] at hr
      simp only [Option.map_some, Option.some.injEq, Prod.mk.injEq] at hr
      obtain ⟨rfl, rfl⟩ := hr
      exact (key h2 h1 (by omega) hp).symm

theorem monotone_flags : ∀ l : List Bool, (∀ i j, i ≤ j → j < l.length → l.getD i false = true → l.getD j false = true) →
    l = List.replicate (l.count false) false ++ List.replicate (l.count true) true
  | [], _ => rfl
  | true :: r, h => by
    have hr : ∀ b ∈ r, b = true := by
      intro b hb
      obtain ⟨j, hj, e⟩ := List.getElem_of_mem hb
      have := h 0 (j + 1) (by omega) (by simpa using hj) rfl
      simp only [List.getD_cons_succ] at this
      rw [← e, ← List.getElem_eq_getD (h := hj) false] at *
      exact this
    have hc := List.eq_replicate_of_mem hr
    have h0 : r.count false = 0 := List.count_eq_zero.2 fun hb => absurd (hr _ hb) (by simp)
    have h1 : r.count true = r.length := List.count_eq_length.2 fun b hb => (hr b hb).symm
    simp only [List.count_cons, h0, h1]
    simp [List.replicate_succ, ← hc]
  | false :: r, h => by
    have ih := monotone_flags r fun i j hij hj hi => by
      have := h (i + 1) (j + 1) (by omega) (by simpa using hj) (by simpa using hi)
      simpa using this
    rw [List.count_cons, List.count_cons]
    simp only [beq_self_eq_true, if_true, List.replicate_succ, List.cons_append]
    rw [show (if (false == true) = true then 1 else 0) = 0 from rfl, Nat.add_zero, ← ih]

/-- If the ancillary qubits are the last ones, they are those from the number of the others on. -/
theorem last_flags {c : Circ WOp} (hc : Counted c) (h : AncillasLast c) {q : Nat} (hq : q < c.nqubits) : c.isAncillary q = decide (c.ndata ≤ q) := by
  have hm := monotone_flags c.ancillary fun i j hij hj hi => h i j hij (by rwa [← hc.length]) hi
  have hl := hc.length
  have hd : c.ancillary.count false = c.ndata := by
    have := congrArg List.length hm
    simp only [List.length_append, List.length_replicate, hc.count, hl, Circ.nqubits] at this
    omega
  rw [hd, hc.count] at hm
  rw [Circ.isAncillary, hm, List.getD_eq_getElem?_getD]
  unfold Circ.nqubits at hq
  by_cases hx : c.ndata ≤ q
  · rw [List.getElem?_append_right (by simpa using hx), List.length_replicate, List.getElem?_replicate, if_pos (by omega)]
    simp [hx]
  · rw [List.getElem?_append_left (by simpa using hx), List.getElem?_replicate, if_pos (by omega)]
    simp [hx]

theorem last_stripped {acts : WOp → Nat → Bool} {R : List Nat} {c c' : Circ WOp} (hs : Stripped acts R c c') (h : AncillasLast c) : AncillasLast c' := by
  intro q q' hqq hq' hq
  have hw := hs.width
  have k : oldIndex R q' < c.nqubits := by
    by_contra hge
    have := newIndex_mono R (Nat.le_of_not_lt hge)
    rw [newIndex_oldIndex, ← hw] at this
    omega
  have k2 : oldIndex R q ≤ oldIndex R q' := by
    by_contra hge
    have := newIndex_lt (Nat.lt_of_not_le hge) (oldIndex_kept R q')
    rw [newIndex_oldIndex, newIndex_oldIndex] at this
    omega
  have f1 := (hs.flags _ (by omega) (oldIndex_kept R q)).1
  have f2 := (hs.flags _ k (oldIndex_kept R q')).1
  rw [newIndex_oldIndex] at f1 f2
  rw [f2]
  exact h _ _ k2 k (by rw [← f1]; exact hq)

theorem last_marked {m : Nat} {c c' : Circ WOp} (hs : SurplusMarked m c c') (h : AncillasLast c) : AncillasLast c' := by
  intro q q' hqq hq' hq
  rw [hs.width] at hq'
  rw [hs.ancillary q (by omega), Bool.or_eq_true, decide_eq_true_iff] at hq
  rw [hs.ancillary q' hq', Bool.or_eq_true, decide_eq_true_iff]
  rcases hq with hq | hq
  · exact Or.inl (by omega)
  · exact Or.inr (h q q' hqq hq' hq)

theorem last_padded {m : Nat} {c c' : Circ WOp} (hs : Padded m c c') (h : AncillasLast c) : AncillasLast c' := by
  intro q q' hqq hq' hq
  rw [hs.width] at hq'
  by_cases hx : c.nqubits ≤ q'
  · exact (hs.new q' hx hq').1
  · rw [(hs.old q (by omega)).1] at hq
    rw [(hs.old q' (by omega)).1]
    exact h q q' hqq (by omega) hq

theorem prepare_last {acts : WOp → Nat → Bool} {cfg : Configuration} {c1 c2 : Circ WOp} (h1 : CircOk c1) (h2 : CircOk c2) {m : Made WOp}
    (h : prepare acts cfg (c1, c2) = .made m) : Counted m.qc1 ∧ Counted m.qc2 ∧ (AncillasLast c1 → AncillasLast m.qc1) ∧
      (AncillasLast c2 → AncillasLast m.qc2) := by
  obtain ⟨s1, s2, g1, g2, _⟩ := prepare_made h
  obtain ⟨R, t1, t2, g0, _, k1, k2, ok1, ok2⟩ := strip_idle_qubits acts h1 h2
  rw [g1] at g0
  cases g0
  obtain ⟨a, b⟩ := setup_counted ok1 ok2 g2
  obtain ⟨u1, u2, g3, _, _, ga, gb⟩ := setup_ancillaries ok1 ok2
  rw [g2] at g3
  cases g3
  refine ⟨a, b, ?_⟩
  by_cases hn : s1.nqubits > s2.nqubits
  · obtain ⟨hs, hp⟩ := ga hn
    exact ⟨fun h => last_marked hs (last_stripped k1 h), fun h => last_padded hp (last_stripped k2 h)⟩
  · obtain ⟨hp, hs⟩ := gb (by omega)
    exact ⟨fun h => last_padded hp (last_stripped k1 h), fun h => last_marked hs (last_stripped k2 h)⟩

/-- **C64.** If the ancillary qubits of a given circuit are its last ones, then so are those of the prepared circuit. -/
theorem construct_last {acts : WOp → Nat → Bool} {P : Passes (Circ WOp)} {cfg : Configuration}
    {c1 c2 : Circ WOp} (h1 : Runnable c1) (h2 : Runnable c2) (hP : ∀ p ∈ planned cfg.optimizations true, Faithful P p) {m : Made WOp}
    (h : Prep.construct acts P cfg c1 c2 = .made m) : Counted m.qc1 ∧ Counted m.qc2 ∧ (AncillasLast c1 → AncillasLast m.qc1) ∧
      (AncillasLast c2 → AncillasLast m.qc2) := by
  have main : ∀ a b : Circ WOp, Runnable a → Runnable b → a.nqubits = c1.nqubits → b.nqubits = c2.nqubits →
      (∀ q, a.isAncillary q = c1.isAncillary q) → (∀ q, b.isAncillary q = c2.isAncillary q) → prepare acts cfg (a, b) = .made m →
      Counted m.qc1 ∧ Counted m.qc2 ∧ (AncillasLast c1 → AncillasLast m.qc1) ∧ (AncillasLast c2 → AncillasLast m.qc2) := by
    intro a b h1 h2 na nb aa ab h
    obtain ⟨x, y, z, w⟩ := prepare_last h1.ok h2.ok h
    refine ⟨x, y, fun hl => z ?_, fun hl => w ?_⟩
    · intro q q' h1 h2 h3
      rw [aa] at h3 ⊢
      exact hl q q' h1 (by rwa [← na]) h3
    · intro q q' h1 h2 h3
      rw [ab] at h3 ⊢
      exact hl q q' h1 (by rwa [← nb]) h3
  have sub : ∀ d, ∀ p ∈ planned cfg.optimizations d, Faithful P p := by
    intro d p hp
    refine hP p ?_
    cases d
    · simp only [planned, Bool.false_eq_true, if_false, List.nil_append] at hp
      simp only [planned, if_true]
      exact List.mem_append_right _ hp
    · exact hp
  unfold Prep.construct at h
  split at h
  · rw [passes_exact] at h
    by_cases he : P.empty c1 = true ∧ P.empty c2 = true
    · rw [if_pos he] at h
      exact main c1 c2 h1 h2 rfl rfl (fun _ => rfl) (fun _ => rfl) h
    · rw [if_neg he] at h
      by_cases hd : (P.dynamic c1 = true ∨ P.dynamic c2 = true) ∧ cfg.optimizations.transformDynamicCircuit = false
      · rw [if_pos hd] at h
        exact absurd h (by simp)
      · rw [if_neg hd] at h
        obtain ⟨a1, a2, a3, _⟩ := faithful_list _ (sub (P.dynamic c1)) c1 h1
        obtain ⟨b1, b2, b3, _⟩ := faithful_list _ (sub (P.dynamic c2)) c2 h2
        exact main _ _ a1 b1 a2 b2 a3 b3 h
  · exact main c1 c2 h1 h2 rfl rfl (fun _ => rfl) (fun _ => rfl) h

/-- No checker takes the wrong qubits for the ancillary ones if those of the first circuit are its last ones. -/
theorem not_displaced {c1 c2 : Circ WOp} (h1 : Runnable c1) (h2 : Runnable c2) (hl : AncillasLast c1) (cfg : Configuration)
    (setters : List Param.Setter) (k : Mgr.Kind) : ¬ Displaced lib c1 c2 cfg setters k := by
  rintro ⟨M, hP, hm, _, hn⟩
  have hacts := lib.reliable
  exact hn ((construct_last h1 h2 hP hm).2.2.1 hl)

/-- A circuit without ancillary qubits. -/
theorem last_of_none {c : Circ WOp} (h : ∀ q, c.isAncillary q = false) : AncillasLast c := fun q _ _ _ hq => by rw [h] at hq; exact absurd hq (by simp)

end QCEC.Props
