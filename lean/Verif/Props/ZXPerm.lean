import Verif.Lemmas.ZXPerm
/-!
# C38, C56: permutations and ancillaries in the ZX checker

A layout is read as a partial map: `(a, b) ∈ l` says that `a` is mapped to `b`.
-/
namespace QCEC.Props
open QCEC QCEC.Prep QCEC.ZX QCEC.Spec

/-! ## C38 -/

/-- **C38.** `invert` inverts: for every injective map. -/
theorem invert_spec {l : Layout} (hv : (l.map Prod.snd).Nodup) (a b : Nat) : (a, b) ∈ invert l ↔ (b, a) ∈ l := mem_invert hv

/-- **C38.** Inverting twice gives the map back. -/
theorem invert_involutive {l : Layout} (hs : l.Sorted) (hv : (l.map Prod.snd).Nodup) : invert (invert l) = l := by
  have hv' : ((invert l).map Prod.snd).Nodup := by
    refine nodup_of_inj (sorted_invert hv) ?_
    intro a b v ha hb
    exact Layout.key_inj (Layout.nodup_of_lt hs) ((mem_invert hv).1 ha) ((mem_invert hv).1 hb)
  refine Layout.sorted_ext (sorted_invert hv') hs ?_
  intro a b
  rw [mem_invert hv', mem_invert hv]

/-- **C38.** `concat` is the composition of partial maps. -/
theorem concat_spec {p1 p2 : Layout} (h1 : p1.Sorted) (h2 : p2.Sorted) (a c : Nat) :
    (a, c) ∈ concat p1 p2 ↔ ∃ b, (a, b) ∈ p1 ∧ (b, c) ∈ p2 := mem_concat (Layout.nodup_of_lt h1) h2

/-- **C38.** `complete` extends every injective partial map into `0 .. n-1` to one onto `0 .. n-1`; the given assignments stay, new keys
are numbers below `n` that were free. -/
theorem complete_spec {p : Layout} {n : Nat} (hs : p.Sorted) (hv : (p.map Prod.snd).Nodup) (hr : ∀ a b, (a, b) ∈ p → b < n) :
    ∃ r, complete p n = some r ∧ r.Sorted ∧ (r.map Prod.snd).Nodup ∧ (∀ a b, (a, b) ∈ p → (a, b) ∈ r) ∧
      (∀ q, (∃ a, (a, q) ∈ r) ↔ q < n) ∧ (∀ a b, (a, b) ∈ r → (a, b) ∈ p ∨ (a < n ∧ ∀ c, (a, c) ∉ p)) := by
  unfold complete
  by_cases hl : p.length = n
  · rw [if_pos hl]
    exact ⟨p, rfl, hs, hv, fun _ _ h => h, fun q => ⟨fun ⟨a, h⟩ => hr a q h, onto_of_length hv hr hl q⟩, fun _ _ h => Or.inl h⟩
  · rw [if_neg hl]
    obtain ⟨s, h1, h2, h3⟩ := start_ok hs hv hr
    rw [h1]
    obtain ⟨k1, k2, _⟩ := steps_ok (List.range n) (fun i hi => List.mem_range.1 hi) h3
    exact ⟨_, rfl, k1.sorted, k1.inj, k1.keep, fun q => ⟨fun ⟨a, h⟩ => k1.range a q h, fun h => k2 q (List.mem_range.2 h)⟩, k1.new⟩

/-- **C38.** If the keys are below `n` too, the completion is a bijection of `0 .. n-1`. -/
theorem complete_bijection {p r : Layout} {n : Nat} (hs : p.Sorted) (hv : (p.map Prod.snd).Nodup) (hr : ∀ a b, (a, b) ∈ p → b < n)
    (hk : ∀ a b, (a, b) ∈ p → a < n) (h : complete p n = some r) :
    (∀ a, (∃ b, (a, b) ∈ r) ↔ a < n) ∧ (∀ b, (∃ a, (a, b) ∈ r) ↔ b < n) := by
  obtain ⟨r', h0, h1, h2, h3, h4, h5⟩ := complete_spec hs hv hr
  rw [h] at h0
  cases h0
  refine ⟨?_, h4⟩
  have hlt : ∀ a b, (a, b) ∈ r → a < n := by
    intro a b hab
    rcases h5 a b hab with h | h
    · exact hk a b h
    · exact h.1
  have hlen : r.length = n := by
    have hsub : List.range n ⊆ r.map Prod.snd := by
      intro q hq
      obtain ⟨a, ha⟩ := (h4 q).2 (List.mem_range.1 hq)
      exact List.mem_map.2 ⟨_, ha, rfl⟩
    have l1 := (List.subperm_of_subset List.nodup_range hsub).length_le
    have hsub2 : r.map Prod.snd ⊆ List.range n := by
      intro q hq
      obtain ⟨e, he, rfl⟩ := List.mem_map.1 hq
      exact List.mem_range.2 ((h4 e.2).1 ⟨_, he⟩)
    have l2 := (List.subperm_of_subset h2 hsub2).length_le
    simp at l1 l2
    omega
  intro a
  constructor
  · rintro ⟨b, hb⟩; exact hlt a b hb
  · intro ha
    have hsub : r.map Prod.fst ⊆ List.range n := by
      intro q hq
      obtain ⟨e, he, rfl⟩ := List.mem_map.1 hq
      exact List.mem_range.2 (hlt e.1 e.2 he)
    have hperm := (List.subperm_of_subset (Layout.nodup_of_lt h1) hsub).perm_of_length_le (by simp [hlen])
    obtain ⟨e, he, rfl⟩ := List.mem_map.1 (hperm.mem_iff.2 (List.mem_range.2 ha))
    exact ⟨e.2, he⟩

/-- **C38.** The map from outputs to wires: it is always defined; an output `q` is mapped to wire `w` iff both belong to one physical
qubit of the completed layouts.  In particular a qubit that is read out is mapped to the label its physical qubit started with. -/
theorem invertPermutations_spec {α : Type} {c : Circ α} (h : CircOk c) :
    ∃ o p, complete c.outputPermutation c.nqubits = some o ∧ invertPermutations c = some p ∧ p.Sorted ∧
      (∀ q w, (q, w) ∈ p ↔ ∃ k, (k, q) ∈ o ∧ (k, w) ∈ c.initialLayout) ∧
      (∀ k q w, (k, q) ∈ c.outputPermutation → (k, w) ∈ c.initialLayout → (q, w) ∈ p) := by
  obtain ⟨o, h1, h2, h3, h4, h5, h6⟩ := complete_spec h.outKeys h.outInj h.outRange
  have hlen : c.initialLayout.length = c.nqubits := by
    have hsub : List.range c.nqubits ⊆ c.initialLayout.map Prod.snd := by
      intro q hq
      obtain ⟨a, ha⟩ := (h.onto q).2 (List.mem_range.1 hq)
      exact List.mem_map.2 ⟨_, ha, rfl⟩
    have l1 := (List.subperm_of_subset List.nodup_range hsub).length_le
    have hsub2 : c.initialLayout.map Prod.snd ⊆ List.range c.nqubits := by
      intro q hq
      obtain ⟨e, he, rfl⟩ := List.mem_map.1 hq
      exact List.mem_range.2 ((h.onto e.2).1 ⟨_, he⟩)
    have l2 := (List.subperm_of_subset h.inj hsub2).length_le
    simp at l1 l2
    omega
  have hc : complete c.initialLayout c.nqubits = some c.initialLayout := by rw [complete, if_pos hlen]
  have hmem : ∀ q w, (q, w) ∈ concat (invert o) c.initialLayout ↔ ∃ k, (k, q) ∈ o ∧ (k, w) ∈ c.initialLayout := by
    intro q w
    rw [mem_concat (Layout.nodup_of_lt (sorted_invert h3)) h.keys]
    simp only [mem_invert h3]
  refine ⟨o, concat (invert o) c.initialLayout, h1, ?_, sorted_concat (Layout.nodup_of_lt (sorted_invert h3)) h.keys, hmem, ?_⟩
  · rw [invertPermutations, invertLayouts, h1, hc]
  · intro k q w hk hw
    exact (hmem q w).2 ⟨k, h4 _ _ hk, hw⟩

/-- **C38.** If the physical qubits are `0 .. n-1`, or all qubits are read out from physical qubits of the layout, the map from outputs
to wires is a bijection of `0 .. n-1`.  (Missing: layouts with gaps in which some qubit is not read out, see `gap_loses_qubit`.) -/
theorem invertPermutations_bijection_partial {α : Type} {c : Circ α} (h : CircOk c)
    (hout : ∀ k q, (k, q) ∈ c.outputPermutation → ∃ w, (k, w) ∈ c.initialLayout)
    (hgap : (∀ k w, (k, w) ∈ c.initialLayout → k < c.nqubits) ∨ c.outputPermutation.length = c.nqubits) {p : Layout}
    (hp : invertPermutations c = some p) :
    p.Sorted ∧ (p.map Prod.snd).Nodup ∧ (∀ q, (∃ w, (q, w) ∈ p) ↔ q < c.nqubits) ∧ (∀ w, (∃ q, (q, w) ∈ p) ↔ w < c.nqubits) := by
  obtain ⟨o, p', h1, h2, h3, h4, h5⟩ := invertPermutations_spec h
  rw [hp] at h2
  cases h2
  obtain ⟨o', k1, k2, k3, k4, k5, k6⟩ := complete_spec h.outKeys h.outInj h.outRange
  rw [h1] at k1
  cases k1
  have hinj : (p.map Prod.snd).Nodup := by
    refine nodup_of_inj h3 ?_
    intro a b v ha hb
    obtain ⟨x, x1, x2⟩ := (h4 a v).1 ha
    obtain ⟨y, y1, y2⟩ := (h4 b v).1 hb
    have := Layout.value_inj h.inj x2 y2
    subst this
    exact Layout.key_inj (Layout.nodup_of_lt k2) x1 y1
  -- every key of the completed output permutation belongs to the layout
  have hkeys : ∀ k q, (k, q) ∈ o → ∃ w, (k, w) ∈ c.initialLayout := by
    intro k q hkq
    rcases k6 k q hkq with hk | ⟨hk, hno⟩
    · exact hout k q hk
    · rcases hgap with hg | hg
      · have hsub : c.initialLayout.map Prod.fst ⊆ List.range c.nqubits := by
          intro a ha
          obtain ⟨e, he, rfl⟩ := List.mem_map.1 ha
          exact List.mem_range.2 (hg e.1 e.2 he)
        have hsub2 : List.range c.nqubits ⊆ c.initialLayout.map Prod.snd := by
          intro q hq
          obtain ⟨a, ha⟩ := (h.onto q).2 (List.mem_range.1 hq)
          exact List.mem_map.2 ⟨_, ha, rfl⟩
        have l1 := (List.subperm_of_subset List.nodup_range hsub2).length_le
        have hperm := (List.subperm_of_subset (Layout.nodup_of_lt h.keys) hsub).perm_of_length_le (by simpa using l1)
        obtain ⟨e, he, rfl⟩ := List.mem_map.1 (hperm.mem_iff.2 (List.mem_range.2 hk))
        exact ⟨e.2, he⟩
      · have : complete c.outputPermutation c.nqubits = some c.outputPermutation := by rw [complete, if_pos hg]
        rw [h1] at this
        cases this
        exact absurd hkq (hno q)
  have hdom : ∀ q, (∃ w, (q, w) ∈ p) ↔ q < c.nqubits := by
    intro q
    constructor
    · rintro ⟨w, hw⟩
      obtain ⟨k, x1, _⟩ := (h4 q w).1 hw
      exact (k5 q).1 ⟨k, x1⟩
    · intro hq
      obtain ⟨k, hk⟩ := (k5 q).2 hq
      obtain ⟨w, hw⟩ := hkeys k q hk
      exact ⟨w, (h4 q w).2 ⟨k, hk, hw⟩⟩
  refine ⟨h3, hinj, hdom, ?_⟩
  have hran : ∀ q w, (q, w) ∈ p → w < c.nqubits := by
    intro q w hw
    obtain ⟨k, _, x2⟩ := (h4 q w).1 hw
    exact (h.onto w).1 ⟨k, x2⟩
  intro w
  constructor
  · rintro ⟨q, hq⟩; exact hran q w hq
  · intro hw
    have hlen : p.length = c.nqubits := by
      have hsub : List.range c.nqubits ⊆ p.map Prod.fst := by
        intro q hq
        obtain ⟨a, ha⟩ := (hdom q).2 (List.mem_range.1 hq)
        exact List.mem_map.2 ⟨_, ha, rfl⟩
      have l1 := (List.subperm_of_subset List.nodup_range hsub).length_le
      have hsub2 : p.map Prod.snd ⊆ List.range c.nqubits := by
        intro q hq
        obtain ⟨e, he, rfl⟩ := List.mem_map.1 hq
        exact List.mem_range.2 (hran _ _ he)
      have l2 := (List.subperm_of_subset hinj hsub2).length_le
      simp at l1 l2
      omega
    obtain ⟨a, ha⟩ := onto_of_length hinj (fun a b h => hran a b h) hlen w hw
    exact ⟨a, ha⟩

/-! ## C56: fixing the ancillaries -/

/-- Erasing the position of a number from an initial segment of the ascending numbers below `n`. -/
theorem erase_position {n : Nat} (f : Nat → Bool) {o : Nat} (ho : o < n) (hf : ∀ i, i ≤ o → f i = true) :
    ((List.range n).filter f).eraseIdx o = (List.range n).filter (fun i => f i && decide (i ≠ o)) := by
  obtain ⟨m, rfl⟩ : ∃ m, n = (o + 1) + m := ⟨n - (o + 1), by omega⟩
  rw [List.range_add, List.filter_append, List.filter_append]
  have h1 : (List.range (o + 1)).filter f = List.range o ++ [o] := by
    rw [List.filter_eq_self.2 (fun i hi => hf i (by have := List.mem_range.1 hi; omega)), List.range_succ]
  have h2 : (List.range (o + 1)).filter (fun i => f i && decide (i ≠ o)) = List.range o := by
    rw [List.range_succ, List.filter_append, List.filter_eq_self.2]
    · simp
    · intro i hi
      have := List.mem_range.1 hi
      simp [hf i (by omega)]
      omega
  have h3 : ((List.range m).map (o + 1 + ·)).filter (fun i => f i && decide (i ≠ o)) = ((List.range m).map (o + 1 + ·)).filter f := by
    refine List.filter_congr ?_
    intro i hi
    obtain ⟨j, _, rfl⟩ := List.mem_map.1 hi
    simp
    omega
  rw [h1, h2, h3, List.append_assoc, List.eraseIdx_append_of_length_le (by simp)]
  simp

/-- **C56.** If the ancillary qubits are read out in their order (`p` is increasing on them), exactly the ancillary inputs and exactly
the outputs on which the ancillary qubits end are fixed. -/
theorem ancillae_fixed_partial {p : Layout} {data n : Nat} (hd : data ≤ n) (w : Nat → Nat)
    (hp : ∀ a, data ≤ a → a < n → p.get a = some (w a)) (hw : ∀ a, data ≤ a → a < n → w a < n)
    (hinc : ∀ a b, data ≤ a → a < b → b < n → w a < w b) :
    fixAncillae p data n = some ⟨List.range data, (List.range n).filter fun o => decide (∀ a, a < n → data ≤ a → w a ≠ o)⟩ := by
  unfold fixAncillae
  have key : ∀ k, k ≤ n - data → (List.range' (n - k) k).reverse.foldlM (fixAncilla p) (Ports.new n) =
      some ⟨List.range (n - k), (List.range n).filter fun o => decide (∀ a, a < n → n - k ≤ a → w a ≠ o)⟩ := by
    intro k
    induction k with
    | zero =>
      intro _
      simp only [Nat.sub_zero, List.range'_zero, List.reverse_nil, List.foldlM_nil, Ports.new]
      have : (List.range n).filter (fun o => decide (∀ a, a < n → n ≤ a → w a ≠ o)) = List.range n := by
        rw [List.filter_eq_self]
        intro o _
        simp only [decide_eq_true_eq]
        intro a h1 h2
        omega
      rw [this]
      rfl
    | succ k ih =>
      intro hk
      have e1 : List.range' (n - (k + 1)) (k + 1) = (n - (k + 1)) :: List.range' (n - k) k := by
        rw [List.range'_succ]
        congr 2
        omega
      rw [e1, List.reverse_cons, List.foldlM_append, ih (by omega)]
      simp only [List.foldlM_cons, List.foldlM_nil, Option.bind_eq_bind, Option.bind_some, Option.pure_def, Option.bind_fun_some]
      have hlt := hw (n - (k + 1)) (by omega) (by omega)
      have hfilt := erase_position (n := n) (fun o => decide (∀ a, a < n → n - k ≤ a → w a ≠ o)) hlt (by
        intro i hi
        simp only [decide_eq_true_eq]
        intro a h1 h2
        have := hinc (n - (k + 1)) a (by omega) (by omega) h1
        omega)
      unfold fixAncilla Ports.makeAncilla
      rw [hp _ (by omega) (by omega)]
      simp only
      rw [if_pos]
      · rw [hfilt]
        have e2 : (List.range (n - k)).eraseIdx (n - (k + 1)) = List.range (n - (k + 1)) := by
          rw [show n - k = (n - (k + 1)) + 1 by omega, List.range_succ, List.eraseIdx_append_of_length_le (by simp)]
          simp
        rw [e2]
        refine congrArg (fun l => some (Ports.mk (List.range (n - (k + 1))) l)) ?_
        refine List.filter_congr ?_
        intro o _
        rw [Bool.eq_iff_iff]
        simp only [ne_eq, Bool.and_eq_true, decide_eq_true_eq]
        constructor
        · rintro ⟨h1, h2⟩ a h3 h4
          by_cases e : a = n - (k + 1)
          · subst e; exact fun h => h2 h.symm
          · exact h1 a h3 (by omega)
        · intro h
          exact ⟨fun a h1 h2 => h a h1 (by omega), fun e => h (n - (k + 1)) (by omega) (by omega) e.symm⟩
      · refine ⟨by simp; omega, ?_⟩
        -- more than `w` outputs are left
        have hall : List.range (w (n - (k + 1)) + 1) ⊆ (List.range n).filter (fun o => decide (∀ a, a < n → n - k ≤ a → w a ≠ o)) := by
          intro o ho
          have := List.mem_range.1 ho
          simp only [List.mem_filter, List.mem_range, decide_eq_true_eq]
          refine ⟨by omega, ?_⟩
          intro a h1 h2
          have := hinc (n - (k + 1)) a (by omega) (by omega) h1
          omega
        have := (List.subperm_of_subset List.nodup_range hall).length_le
        simp at this ⊢
        omega
  have := key (n - data) (Nat.le_refl _)
  rw [show n - (n - data) = data by omega] at this
  rw [this]

/-- The hypotheses are met by the usual case, ancillary qubits that are read out where they are. -/
example : fixAncillae [(0, 1), (1, 0), (2, 2), (3, 3)] 2 4 = some ⟨[0, 1], [0, 1]⟩ := by decide

/-! ## Limits -/

/-- **C56, limit.** Ancillary qubits that end on other wires in another order: output positions have shifted when they are used.  Here the
qubits 2 and 3 end on the wires 1 and 0; wires 0 and 2 get fixed instead of 0 and 1. -/
theorem ancilla_wrong_output : fixAncillae [(0, 2), (1, 3), (2, 1), (3, 0)] 2 4 = some ⟨[0, 1], [1, 3]⟩ := by decide

/-- **C56, limit.** And here the position does not exist any more: undefined behaviour. -/
theorem ancilla_out_of_range : fixAncillae [(0, 0), (1, 2), (2, 1)] 1 3 = none := by decide

/-- A circuit left by the preparation when a device qubit between was idle and the second qubit is not read out. -/
def gapCirc : Circ (List Nat) where
  ndata := 1
  nancillae := 1
  initialLayout := [(0, 0), (2, 1)]
  outputPermutation := [(0, 0)]
  ancillary := [false, true]
  garbage := [false, true]
  ops := [[0, 2]]

/-- **C38/C56, limit.** With a gap in the physical qubits the completion invents physical qubit 1, which the layout does not have; the
ancillary qubit is lost from the map, and the constructor – which must not throw – ends the process. -/
theorem gap_loses_qubit : invertPermutations gapCirc = some [(0, 0)] ∧ construct gapCirc gapCirc = none := by
  constructor <;> decide

example : CircOk gapCirc := by
  refine ⟨by decide, by decide, ?_, by decide, by decide, ?_, ?_, by decide, by decide, by decide⟩
  · intro q
    simp [gapCirc, Circ.nqubits]
    constructor
    · rintro ⟨p, h | h⟩ <;> omega
    · intro h
      rcases q with _ | _ | q
      · exact ⟨0, by simp⟩
      · exact ⟨2, by simp⟩
      · omega
  · intro p q h
    simp [gapCirc] at h
    simp [gapCirc, Circ.nqubits]
    omega
  · intro p q h
    simp [gapCirc] at h
    simp [gapCirc, Circ.isGarbage, h.2]

end QCEC.Props
