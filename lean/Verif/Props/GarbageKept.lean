import Verif.Lemmas.Misled
import Verif.Props.PreparationPartial
import Verif.Props.AncillasLast
/-!
# Properties: preparing circuits with the same garbage qubits (C64, C74)

The manager calls the qubits it adds to the smaller circuit garbage, but not necessarily those of the larger one.  That makes no difference, since the
smaller circuit does not use them.
-/
namespace QCEC.Props
open QCEC QCEC.Prep QCEC.Spec QCEC.Spec.Wide QCEC.Spec.ZX QCEC.Wide QCEC.Mgr QCEC.Sem

variable {m n : Nat}

/-- Operations and output permutation only mention wires on which a qubit before `q` starts, and no such wire is read out as `q` or a later qubit. -/
structure Unnamed (c : Circ WOp) (q : Nat) : Prop where
  ops : ∀ o ∈ c.ops, ∀ p, o.Names p → ∃ q', (p, q') ∈ c.initialLayout ∧ q' < q
  out : ∀ p q', (p, q') ∈ c.outputPermutation → q' < q ∧ ∃ q'', (p, q'') ∈ c.initialLayout ∧ q'' < q

theorem padded_unnamed {N : Nat} {c r : Circ WOp} (hc : Runnable c) (h : Padded N c r) {q : Nat} (hq : c.nqubits ≤ q) : Unnamed r q := by
  refine ⟨fun o ho p hp => ?_, fun p q' hp => ?_⟩
  · rw [h.ops] at ho
    obtain ⟨q', hq'⟩ := hc.inside o ho p hp
    exact ⟨q', (h.initial _ _).2 (Or.inl hq'), by have := (hc.ok.onto q').1 ⟨p, hq'⟩; omega⟩
  · rw [h.output] at hp
    obtain ⟨q'', hq''⟩ := hc.outInside p q' hp
    exact ⟨by have := hc.ok.outRange _ _ hp; omega, q'', (h.initial _ _).2 (Or.inl hq''), by have := (hc.ok.onto q'').1 ⟨p, hq''⟩; omega⟩

theorem smoved_avoids {p : Fin n} {s : SOp n} (h : SAvoids p s) (σ : Equiv.Perm (Fin n)) : SMoved σ s p = σ p := by
  cases s with
  | gate g => rfl
  | swap a b =>
    obtain ⟨h1, h2⟩ := h
    show σ (Equiv.swap a b p) = σ p
    rw [Equiv.swap_apply_of_ne_of_ne (Ne.symm h1) (Ne.symm h2)]
  | barrier => rfl

theorem smoved_list {p : Fin n} : ∀ {l : List (SOp n)}, (∀ s ∈ l, SAvoids p s) → ∀ σ : Equiv.Perm (Fin n), l.foldl SMoved σ p = σ p
  | [], _, _ => rfl
  | s :: l, h, σ => by
    rw [List.foldl_cons, smoved_list (fun s hs => h s (List.mem_cons_of_mem _ hs)), smoved_avoids (h s List.mem_cons_self)]

theorem moved_list {p : Fin n} : ∀ {l : List (Op n)}, (∀ o ∈ l, Avoids p o) → ∀ σ : Equiv.Perm (Fin n), l.foldl Moved σ p = σ p
  | [], _, _ => rfl
  | o :: l, h, σ => by
    rw [List.foldl_cons, moved_list (fun s hs => h s (List.mem_cons_of_mem _ hs))]
    have := h o List.mem_cons_self
    cases o with
    | simple s => exact smoved_avoids this σ
    | compound l => exact smoved_list this σ

/-- Nothing happens to a qubit that the circuit does not mention. -/
theorem unnamed_idle {e : Nat → Fin n} {c : Circ WOp} {qc : QC n} {ω : Equiv.Perm (Fin n)} (hn : Numbered e c qc) (hw : WellFormed qc ω) {q : Fin n}
    (h : Unnamed c q.val) : Idle qc ω q := by
  have hne : ∀ x q', (x, q') ∈ c.initialLayout → q' < q.val → e x ≠ qc.initialLayout.symm q := by
    intro x q' hx hq' he
    have := hn.initial x q' hx
    rw [he, Equiv.apply_symm_apply] at this
    omega
  have hav : ∀ o ∈ qc.ops, Avoids (qc.initialLayout.symm q) o := by
    intro o ho
    rw [hn.ops] at ho
    obtain ⟨o', ho', rfl⟩ := List.mem_map.1 ho
    refine avoids_on fun x hx => ?_
    obtain ⟨q', a, b⟩ := h.ops o' ho' x hx
    exact hne x q' a b
  have hout : ∀ t ∈ qc.outputPermutation, t.1 ≠ qc.initialLayout.symm q ∧ t.2.val < q.val := by
    intro t ht
    have : (t.1, t.2.val) ∈ qc.outputPermutation.map fun t => (t.1, t.2.val) := List.mem_map.2 ⟨t, ht, rfl⟩
    rw [hn.output] at this
    obtain ⟨u, hu, eu⟩ := List.mem_map.1 this
    obtain ⟨a, q'', b, d⟩ := h.out u.1 u.2 hu
    simp only [Prod.mk.injEq] at eu
    exact ⟨by rw [← eu.1]; exact hne _ _ b d, by rw [← eu.2]; exact a⟩
  have hmv : qc.ops.foldl Moved qc.initialLayout (qc.initialLayout.symm q) = q := by rw [moved_list hav, Equiv.apply_symm_apply]
  refine ⟨qc.initialLayout.symm q, Equiv.apply_symm_apply _ _, ?_, hav⟩
  rw [hw.unlabelled _ (fun t ht => (hout t ht).1) ?_, hmv]
  intro t ht he
  rw [hmv] at he
  have := (hout t ht).2
  rw [he] at this
  omega

theorem count_false_le : ∀ (l : List Bool) (k : Nat), (∀ i, k ≤ i → i < l.length → l.getD i false = true) → l.count false ≤ k
  | [], _, _ => by simp
  | b :: l, 0, h => by
    have hb := h 0 (Nat.le_refl _) (by simp)
    have := count_false_le l 0 fun i _ hi => by simpa using h (i + 1) (by omega) (by simpa using hi)
    simp only [List.getD_cons_zero] at hb
    subst hb
    simpa using this
  | b :: l, k + 1, h => by
    have := count_false_le l k fun i hk hi => by simpa using h (i + 1) (by omega) (by simpa using hi)
    rw [List.count_cons]
    split <;> omega

theorem ndata_le {c : Circ WOp} (hc : Counted c) {k : Nat} (h : ∀ q, k ≤ q → q < c.nqubits → c.isAncillary q = true) : c.ndata ≤ k := by
  have h1 := count_false_le c.ancillary k fun i hk hi => h i hk (by rwa [← hc.length])
  have h2 := hc.length
  have h3 : ∀ l : List Bool, l.length = l.count true + l.count false := by
    intro l
    induction l with
    | nil => rfl
    | cons b l ih => cases b <;> simp [ih] <;> omega
  rw [h3, hc.count] at h2
  unfold Circ.nqubits at h2
  omega

/-- The two flags of a prepared pair. -/
structure GarbageAt (c1 c2 : Circ WOp) (q : Nat) : Prop where
  data1 : c1.ndata ≤ q
  ancillary1 : c1.isAncillary q = true
  ancillary2 : c2.isAncillary q = true
  one : c1.isGarbage q = true ∧ Unnamed c1 q ∨ c2.isGarbage q = true ∧ Unnamed c2 q

theorem setup_garbage {c1 c2 r1 r2 : Circ WOp} (hc1 : Runnable c1) (hp : Padded c2.nqubits c1 r1)
    (hs : SurplusMarked c1.nqubits c2 r2) (k1 : Counted r1) (k2 : Counted r2) (hg : SameGarbage c1 c2) {q : Nat} (hq : q < c2.nqubits) :
    r1.isGarbage q = r2.isGarbage q ∨ r1.ndata ≤ q ∧ r2.ndata ≤ q ∧ r1.isAncillary q = true ∧ r2.isAncillary q = true ∧
      r1.isGarbage q = true ∧ Unnamed r1 q := by
  by_cases hx : q < c1.nqubits
  · left
    rw [(hp.old q hx).2, hg q hx hq]
    have := hs.garbage q hq
    cases a : c2.isGarbage q <;> cases b : r2.isGarbage q <;> simp_all
    omega
  · right
    have hx' : c1.nqubits ≤ q := by omega
    refine ⟨ndata_le k1 fun q' a b => (hp.new q' (by omega) (by rwa [← hp.width])).1,
      ndata_le k2 fun q' a b => ?_, (hp.new q hx' hq).1, ?_, (hp.new q hx' hq).2, padded_unnamed hc1 hp hx'⟩
    · rw [hs.ancillary q' (by rwa [← hs.width])]
      simp; omega
    · rw [hs.ancillary q hq]
      simp; omega

theorem prepare_garbage {acts : WOp → Nat → Bool} (hacts : Reliable acts) {cfg : Configuration} {c1 c2 : Circ WOp} (h1 : Runnable c1) (h2 : Runnable c2)
    {m : Made WOp} (h : prepare acts cfg (c1, c2) = .made m) (hg : SameGarbage c1 c2) (q : Nat) (hq : q < m.qc1.nqubits) :
    m.qc1.isGarbage q = m.qc2.isGarbage q ∨ GarbageAt m.qc1 m.qc2 q := by
  obtain ⟨k1', k2', _⟩ := prepare_last h1.ok h2.ok h
  obtain ⟨s1, s2, g1, g2, _⟩ := prepare_made h
  obtain ⟨R, t1, t2, g0, _, k1, k2, ok1, ok2⟩ := strip_idle_qubits acts h1.ok h2.ok
  rw [g1] at g0
  cases g0
  have r1 := runnable_stripped hacts h1 ok1 k1
  have r2 := runnable_stripped hacts h2 ok2 k2
  obtain ⟨u1, u2, g3, w1, w2, ga, gb⟩ := setup_ancillaries ok1 ok2
  rw [g2] at g3
  cases g3
  have hs : SameGarbage s1 s2 := by
    intro q a b
    rw [k1.width] at a
    rw [k2.width] at b
    have f1 := (k1.flags _ (old_lt a) (oldIndex_kept R q)).2
    have f2 := (k2.flags _ (old_lt b) (oldIndex_kept R q)).2
    rw [newIndex_oldIndex] at f1 f2
    rw [f1, f2]
    exact hg _ (old_lt a) (old_lt b)
  rw [w1] at hq
  by_cases hn : s1.nqubits > s2.nqubits
  · obtain ⟨hm, hp⟩ := ga hn
    rcases setup_garbage r2 hp hm k2' k1' (fun q a b => (hs q b a).symm) (q := q) (by omega) with e | ⟨a, b, c, d, e, f⟩
    · exact Or.inl e.symm
    · exact Or.inr ⟨b, d, c, Or.inr ⟨e, f⟩⟩
  · obtain ⟨hp, hm⟩ := gb (by omega)
    rcases setup_garbage r1 hp hm k1' k2' hs (q := q) (by omega) with e | ⟨a, b, c, d, e, f⟩
    · exact Or.inl e
    · exact Or.inr ⟨a, c, d, Or.inl ⟨e, f⟩⟩

theorem construct_garbage {acts : WOp → Nat → Bool} (hacts : Reliable acts) {P : Passes (Circ WOp)} {cfg : Configuration}
    {c1 c2 : Circ WOp} (h1 : Runnable c1) (h2 : Runnable c2) (hP : ∀ p ∈ planned cfg.optimizations true, Faithful P p ∧ KeepsGarbage P p) {m : Made WOp}
    (h : Prep.construct acts P cfg c1 c2 = .made m) (hg : SameGarbage c1 c2) (q : Nat) (hq : q < m.qc1.nqubits) :
    m.qc1.isGarbage q = m.qc2.isGarbage q ∨ GarbageAt m.qc1 m.qc2 q := by
  have sub : ∀ d, ∀ p ∈ planned cfg.optimizations d, Faithful P p ∧ KeepsGarbage P p := by
    intro d p hp
    refine hP p ?_
    cases d
    · simp only [planned, Bool.false_eq_true, if_false, List.nil_append] at hp
      simp only [planned, if_true]
      exact List.mem_append_right _ hp
    · exact hp
  unfold Prep.construct at h
  split at h
  · rw [passes_exact] at h
    by_cases he : P.empty c1 = true ∧ P.empty c2 = true
    · rw [if_pos he] at h
      exact prepare_garbage hacts h1 h2 h hg q hq
    · rw [if_neg he] at h
      by_cases hd : (P.dynamic c1 = true ∨ P.dynamic c2 = true) ∧ cfg.optimizations.transformDynamicCircuit = false
      · rw [if_pos hd] at h
        exact absurd h (by simp)
      · rw [if_neg hd] at h
        obtain ⟨a1, a2, _, _⟩ := faithful_list _ (fun p hp => (sub (P.dynamic c1) p hp).1) c1 h1
        obtain ⟨b1, b2, _, _⟩ := faithful_list _ (fun p hp => (sub (P.dynamic c2) p hp).1) c2 h2
        have ag := garbage_list _ (sub (P.dynamic c1)) c1 h1
        have bg := garbage_list _ (sub (P.dynamic c2)) c2 h2
        refine prepare_garbage hacts a1 b1 h ?_ q hq
        intro q x y
        rw [a2] at x
        rw [b2] at y
        rw [(ag q).1, (bg q).1]
        exact hg q x y
  · exact prepare_garbage hacts h1 h2 h hg q hq

/-- **C64, C74.** If the given circuits call the same qubits garbage, the prepared ones differ at most in qubits that one of them does not use. -/
theorem constructed_same_garbage {acts : WOp → Nat → Bool} (hacts : Reliable acts) {P : Passes (Circ WOp)} {cfg : Configuration}
    {c1 c2 : Circ WOp} (h1 : Runnable c1) (h2 : Runnable c2) (hP : ∀ p ∈ planned cfg.optimizations true, Faithful P p ∧ KeepsGarbage P p) {M : Made WOp}
    (h : Prep.construct acts P cfg c1 c2 = .made M) (hg : SameGarbage c1 c2) (S : PBase M.qc1.ndata n) {e1 e2 : Nat → Fin n}
    (hn1 : Numbered e1 M.qc1 S.qc1) (hn2 : Numbered e2 M.qc2 S.qc2) : S.SameGarbage := by
  intro q
  have hq := q.isLt
  rw [hn1.garbage _ hq, hn2.garbage _ hq, hn1.ancillary _ hq, hn2.ancillary _ hq]
  rcases construct_garbage hacts h1 h2 hP h hg q.val (by rw [hn1.width]; exact hq) with e | g
  · exact Or.inl e
  · refine Or.inr ⟨g.data1, g.ancillary1, g.ancillary2, ?_⟩
    rcases g.one with ⟨a, b⟩ | ⟨a, b⟩
    · exact Or.inl ⟨a, unnamed_idle hn1 S.wf1 b⟩
    · exact Or.inr ⟨a, unnamed_idle hn2 S.wf2 b⟩

end QCEC.Props
