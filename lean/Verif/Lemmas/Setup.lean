import Verif.Lemmas.Prepare
/-!
# Lemmas about `setupAncillariesAndGarbage`
-/
namespace QCEC.Prep
open QCEC QCEC.Spec

variable {α : Type}

/-- The circuit `L` restricted to the logical qubits below `t` (flags left aside). -/
structure Core (L : Circ α) (t : Nat) (c : Circ α) : Prop where
  ops : c.ops = L.ops
  width : c.nqubits = t
  keys : (c.initialLayout.map Prod.fst).Pairwise (· < ·)
  initial : ∀ p q, (p, q) ∈ c.initialLayout ↔ (p, q) ∈ L.initialLayout ∧ q < t
  outKeys : (c.outputPermutation.map Prod.fst).Pairwise (· < ·)
  output : ∀ p q, (p, q) ∈ c.outputPermutation ↔ (p, q) ∈ L.outputPermutation ∧ ∀ q', (p, q') ∈ L.initialLayout → q' < t
  ancillary : c.ancillary.length = t
  garbage : c.garbage.length = t
  count : c.ancillary.count true = c.nancillae

/-- Physical qubit carrying `t`. -/
def physOf (L : Circ α) (t : Nat) : Nat := (L.initialLayout.keyOf t).getD 0

/-- The record of a removed qubit. -/
def remOf (L : Circ α) (t : Nat) : Removed := ⟨physOf L t, L.outputPermutation.get (physOf L t), L.isGarbage t⟩

theorem physOf_mem {L : Circ α} (h : CircOk L) {t : Nat} (ht : t < L.nqubits) : (physOf L t, t) ∈ L.initialLayout := by
  obtain ⟨p, hp⟩ := (h.onto t).2 ht
  rw [physOf, (Layout.keyOf_iff h.inj).2 hp]
  exact hp

theorem width_remove {c : Circ α} (hl : c.ancillary.length = c.nqubits) (hc : c.ancillary.count true = c.nancillae) {l : Nat}
    (h : l < c.nqubits) : (if c.isAncillary l = true then c.ndata else c.ndata - 1) +
      (if c.isAncillary l = true then c.nancillae - 1 else c.nancillae) + 1 = c.nqubits ∧
      (c.ancillary.eraseIdx l).count true = if c.isAncillary l = true then c.nancillae - 1 else c.nancillae := by
  have h1 := count_eraseIdx c.ancillary (l := l) (by omega)
  have h2 : (c.ancillary.eraseIdx l).count true ≤ (c.ancillary.eraseIdx l).length := List.count_le_length
  rw [List.length_eraseIdx_of_lt (by omega), hl] at h2
  rw [hc] at h1
  have hn : c.nqubits = c.ndata + c.nancillae := rfl
  cases ha : c.isAncillary l with
  | true =>
    rw [show c.ancillary.getD l false = true from ha] at h1
    simp at h1 ⊢
    omega
  | false =>
    rw [show c.ancillary.getD l false = false from ha] at h1
    simp at h1 ⊢
    omega

theorem Core.removeQubit {L c : Circ α} (hL : CircOk L) {t : Nat} (h : Core L (t + 1) c) (ht : t < L.nqubits) :
    c.initialLayout.maxValue = some t ∧ ∃ c', c.removeQubit t = some (c', (remOf L t).phys, (remOf L t).out) ∧ Core L t c' ∧
      c'.ancillary = c.ancillary.take t ∧ c'.garbage = c.garbage.take t := by
  have hp := physOf_mem hL ht
  have hpc : (physOf L t, t) ∈ c.initialLayout := (h.initial _ _).2 ⟨hp, by omega⟩
  have hinj : (c.initialLayout.map Prod.snd).Nodup := by
    have hpw : c.initialLayout.Nodup := by
      have := List.pairwise_map.1 h.keys
      exact this.imp (fun h e => by rw [e] at h; omega)
    refine List.Nodup.map_on ?_ hpw
    rintro ⟨a, b⟩ ha ⟨a', b'⟩ hb hab
    simp only at hab
    subst hab
    rw [Layout.value_inj hL.inj ((h.initial _ _).1 ha).1 ((h.initial _ _).1 hb).1]
  have hkey := (Layout.keyOf_iff hinj).2 hpc
  have hmax : c.initialLayout.maxValue = some t := by
    rw [Layout.maxValue, List.max?_eq_some_iff]
    refine ⟨List.mem_map_of_mem (f := Prod.snd) hpc, ?_⟩
    intro v hv
    obtain ⟨⟨a, b⟩, hx, rfl⟩ := List.mem_map.1 hv
    have := ((h.initial _ _).1 hx).2
    simp only
    omega
  have hout : c.outputPermutation.get (physOf L t) = L.outputPermutation.get (physOf L t) := by
    cases hg : L.outputPermutation.get (physOf L t) with
    | none =>
      rw [Layout.get_none (Layout.nodup_of_lt h.outKeys)]
      intro v hv
      exact (Layout.get_none (Layout.nodup_of_lt hL.outKeys)).1 hg v ((h.output _ _).1 hv).1
    | some v =>
      rw [Layout.get_iff (Layout.nodup_of_lt h.outKeys)]
      refine (h.output _ _).2 ⟨(Layout.get_iff (Layout.nodup_of_lt hL.outKeys)).1 hg, ?_⟩
      intro q' hq'
      have := Layout.key_inj (Layout.nodup_of_lt hL.keys) hq' hp
      omega
  obtain ⟨hw1, hw2⟩ := width_remove (c := c) (l := t) (by rw [h.ancillary, h.width]) h.count (by rw [h.width]; omega)
  rw [h.width] at hw1
  refine ⟨hmax, ?_⟩
  unfold Circ.removeQubit
  rw [hkey]
  simp only
  rw [hout]
  refine ⟨_, rfl, ?_, ?_, ?_⟩
  · refine
      { ops := h.ops, width := ?_, keys := Layout.erase_keys h.keys, initial := ?_, outKeys := Layout.erase_keys h.outKeys
        output := ?_, ancillary := ?_, garbage := ?_, count := hw2 }
    · show (if c.isAncillary t = true then c.ndata else c.ndata - 1) +
        (if c.isAncillary t = true then c.nancillae - 1 else c.nancillae) = t
      omega
    · intro p q
      show (p, q) ∈ c.initialLayout.erase (physOf L t) ↔ _
      rw [Layout.mem_erase, h.initial]
      constructor
      · rintro ⟨⟨h1, h2⟩, h3⟩
        refine ⟨h1, ?_⟩
        have : q ≠ t := by
          rintro rfl
          exact h3 (Layout.value_inj hL.inj h1 hp)
        omega
      · rintro ⟨h1, h2⟩
        refine ⟨⟨h1, by omega⟩, ?_⟩
        rintro rfl
        have := Layout.key_inj (Layout.nodup_of_lt hL.keys) h1 hp
        omega
    · intro p q
      show (p, q) ∈ c.outputPermutation.erase (physOf L t) ↔ _
      rw [Layout.mem_erase, h.output]
      constructor
      · rintro ⟨⟨h1, h2⟩, h3⟩
        refine ⟨h1, ?_⟩
        intro q' hq'
        have h4 := h2 q' hq'
        have : q' ≠ t := by
          rintro rfl
          exact h3 (Layout.value_inj hL.inj hq' hp)
        omega
      · rintro ⟨h1, h2⟩
        refine ⟨⟨h1, fun q' hq' => by have := h2 q' hq'; omega⟩, ?_⟩
        rintro rfl
        have := h2 t hp
        omega
    · show (c.ancillary.eraseIdx t).length = t
      rw [List.length_eraseIdx_of_lt (by rw [h.ancillary]; omega), h.ancillary]; omega
    · show (c.garbage.eraseIdx t).length = t
      rw [List.length_eraseIdx_of_lt (by rw [h.garbage]; omega), h.garbage]; omega
  · show c.ancillary.eraseIdx t = c.ancillary.take t
    rw [List.eraseIdx_eq_take_drop_succ, List.drop_of_length_le (by rw [h.ancillary]; omega), List.append_nil]
  · show c.garbage.eraseIdx t = c.garbage.take t
    rw [List.eraseIdx_eq_take_drop_succ, List.drop_of_length_le (by rw [h.garbage]; omega), List.append_nil]

/-- The first loop takes out the topmost qubits. -/
theorem takeOut_spec {L : Circ α} (hL : CircOk L) (k t : Nat) (c : Circ α) (acc : List Removed) (h : Core L (t + k) c)
    (ht : t + k ≤ L.nqubits) (ha : c.ancillary = L.ancillary.take (t + k)) (hg : c.garbage = L.garbage.take (t + k)) :
    ∃ c', takeOut k c acc = some (c', (List.range' t k).map (remOf L) ++ acc) ∧ Core L t c' ∧
      c'.ancillary = L.ancillary.take t ∧ c'.garbage = L.garbage.take t := by
  induction k generalizing c acc with
  | zero => exact ⟨c, by simp [takeOut], h, ha, hg⟩
  | succ k ih =>
    have h' : Core L (t + k + 1) c := h
    obtain ⟨h1, c', h2, h3, h4, h5⟩ := h'.removeQubit hL (by omega)
    have hgar : c.isGarbage (t + k) = L.isGarbage (t + k) := by
      rw [Circ.isGarbage, Circ.isGarbage, hg, List.getD_eq_getElem?_getD, List.getD_eq_getElem?_getD, List.getElem?_take,
        if_pos (by omega)]
    unfold takeOut
    rw [h1]
    simp only
    rw [h2]
    simp only
    obtain ⟨c2, g1, g2, g3, g4⟩ := ih c' (remOf L (t + k) :: acc) h3 (by omega)
      (by rw [h4, ha, List.take_take, Nat.min_eq_left (by omega)]) (by rw [h5, hg, List.take_take, Nat.min_eq_left (by omega)])
    refine ⟨c2, ?_, g2, g3, g4⟩
    rw [hgar]
    have : (⟨(remOf L (t + k)).phys, (remOf L (t + k)).out, L.isGarbage (t + k)⟩ : Removed) = remOf L (t + k) := rfl
    rw [this, g1, List.range'_concat, List.map_append]
    simp

/-- Garbage flag of a qubit that was put back. -/
def backGarbage (L : Circ α) (t : Nat) : Bool := L.isGarbage t || (L.outputPermutation.get (physOf L t)).isNone

theorem eraseValue_id {l : Layout} {v : Nat} (h : ∀ k, (k, v) ∉ l) : l.eraseValue v = l := by
  rw [Layout.eraseValue, List.eraseP_of_forall_not]
  rintro ⟨a, b⟩ hab
  simp only [beq_iff_eq]
  rintro rfl
  exact h a hab

theorem Core.putBack1 {L c : Circ α} (hL : CircOk L) {t : Nat} (h : Core L t c) (ht : t < L.nqubits) :
    ∃ c', Prep.putBack1 c (remOf L t) = some c' ∧ Core L (t + 1) c' ∧ c'.ancillary = c.ancillary ++ [true] ∧
      c'.garbage = c.garbage ++ [backGarbage L t] := by
  have hp := physOf_mem hL ht
  have hi : ∀ w, (physOf L t, w) ∉ c.initialLayout := by
    intro w hw
    have h1 := (h.initial _ _).1 hw
    have := Layout.key_inj (Layout.nodup_of_lt hL.keys) h1.1 hp
    omega
  have ho : ∀ w, (physOf L t, w) ∉ c.outputPermutation := by
    intro w hw
    have := ((h.output _ _).1 hw).2 t hp
    omega
  have hin := Layout.insert_new (v := c.nqubits) h.keys hi
  have hok : ((c.initialLayout.get (physOf L t)).isSome || (c.outputPermutation.get (physOf L t)).isSome) = false := by
    rw [(Layout.get_none (Layout.nodup_of_lt h.keys)).2 hi, (Layout.get_none (Layout.nodup_of_lt h.outKeys)).2 ho]
    rfl
  -- output permutation after re-adding
  obtain ⟨o', ho', hk', hm'⟩ : ∃ o', (match L.outputPermutation.get (physOf L t) with
        | some o => c.outputPermutation.insert (physOf L t) o
        | none => c.outputPermutation) = o' ∧ (o'.map Prod.fst).Pairwise (· < ·) ∧
      ∀ p q, (p, q) ∈ o' ↔ (p, q) ∈ L.outputPermutation ∧ ∀ q', (p, q') ∈ L.initialLayout → q' < t + 1 := by
    have hsplit : ∀ p q, ((p, q) ∈ L.outputPermutation ∧ ∀ q', (p, q') ∈ L.initialLayout → q' < t + 1) ↔
        (p, q) ∈ c.outputPermutation ∨ (p = physOf L t ∧ (p, q) ∈ L.outputPermutation) := by
      intro p q
      rw [h.output]
      constructor
      · rintro ⟨h1, h2⟩
        by_cases hpe : p = physOf L t
        · exact Or.inr ⟨hpe, h1⟩
        · refine Or.inl ⟨h1, ?_⟩
          intro q' hq'
          have := h2 q' hq'
          have : q' ≠ t := by
            rintro rfl
            exact hpe (Layout.value_inj hL.inj hq' hp)
          omega
      · rintro (⟨h1, h2⟩ | ⟨rfl, h1⟩)
        · exact ⟨h1, fun q' hq' => by have := h2 q' hq'; omega⟩
        · refine ⟨h1, fun q' hq' => ?_⟩
          have := Layout.key_inj (Layout.nodup_of_lt hL.keys) hq' hp
          omega
    cases hg : L.outputPermutation.get (physOf L t) with
    | none =>
      refine ⟨_, rfl, h.outKeys, ?_⟩
      intro p q
      rw [hsplit]
      constructor
      · exact Or.inl
      · rintro (h1 | ⟨rfl, h1⟩)
        · exact h1
        · exact absurd h1 ((Layout.get_none (Layout.nodup_of_lt hL.outKeys)).1 hg q)
    | some v =>
      have hins := Layout.insert_new (v := v) h.outKeys ho
      refine ⟨_, rfl, hins.2.1, ?_⟩
      intro p q
      rw [hsplit, hins.1]
      have hv := (Layout.get_iff (Layout.nodup_of_lt hL.outKeys)).1 hg
      constructor
      · rintro (h1 | ⟨rfl, rfl⟩)
        · exact Or.inl h1
        · exact Or.inr ⟨rfl, hv⟩
      · rintro (h1 | ⟨rfl, h1⟩)
        · exact Or.inl h1
        · exact Or.inr ⟨rfl, Layout.key_inj (Layout.nodup_of_lt hL.outKeys) h1 hv⟩
  have hadd : c.addAncillaryQubit (remOf L t).phys (remOf L t).out = some
      { c with
        nancillae := c.nancillae + 1
        initialLayout := c.initialLayout.insert (physOf L t) c.nqubits
        outputPermutation := o'
        ancillary := c.ancillary ++ [true]
        garbage := c.garbage ++ [(L.outputPermutation.get (physOf L t)).isNone] } := by
    unfold Circ.addAncillaryQubit
    rw [show (remOf L t).phys = physOf L t from rfl, hok, ← ho']
    rfl
  have hcore : ∀ g : List Bool, g.length = t + 1 → Core L (t + 1)
      { c with
        nancillae := c.nancillae + 1
        initialLayout := c.initialLayout.insert (physOf L t) c.nqubits
        outputPermutation := o'
        ancillary := c.ancillary ++ [true]
        garbage := g } := by
    intro g hg
    have hw : c.ndata + c.nancillae = t := h.width
    refine
      { ops := h.ops, width := ?_, keys := hin.2.1, initial := ?_, outKeys := hk', output := hm', ancillary := ?_
        garbage := hg, count := ?_ }
    · show c.ndata + (c.nancillae + 1) = t + 1
      omega
    · intro p q
      show (p, q) ∈ c.initialLayout.insert (physOf L t) c.nqubits ↔ _
      rw [hin.1, h.initial, h.width]
      constructor
      · rintro (⟨h1, h2⟩ | ⟨rfl, rfl⟩)
        · exact ⟨h1, by omega⟩
        · exact ⟨hp, by omega⟩
      · rintro ⟨h1, h2⟩
        by_cases hqt : q = t
        · subst hqt
          exact Or.inr ⟨Layout.value_inj hL.inj h1 hp, rfl⟩
        · exact Or.inl ⟨h1, by omega⟩
    · show (c.ancillary ++ [true]).length = t + 1
      rw [List.length_append, h.ancillary]; rfl
    · show (c.ancillary ++ [true]).count true = c.nancillae + 1
      rw [List.count_append, h.count]; rfl
  have hlen : (c.garbage ++ [(L.outputPermutation.get (physOf L t)).isNone]).length = t + 1 := by
    rw [List.length_append, h.garbage]; rfl
  unfold Prep.putBack1
  rw [hadd, Option.map_some]
  have hgr : (remOf L t).garbage = L.isGarbage t := rfl
  rw [hgr]
  refine ⟨_, rfl, ?_⟩
  cases hgt : L.isGarbage t with
  | false =>
    refine ⟨hcore _ hlen, rfl, ?_⟩
    rw [if_neg (by decide), backGarbage, hgt]
    rfl
  | true =>
    rw [if_pos rfl]
    have hww : c.ndata + c.nancillae = t := h.width
    have herase : o'.eraseValue t = o' := by
      apply eraseValue_id
      intro k hk
      have := hL.outGarbage k t ((hm' _ _).1 hk).1
      rw [hgt] at this
      exact absurd this (by decide)
    have hset : (c.garbage ++ [(L.outputPermutation.get (physOf L t)).isNone]).set t true = c.garbage ++ [true] := by
      rw [List.set_append, if_neg (by rw [h.garbage]; omega), h.garbage, Nat.sub_self]
      rfl
    have hidx : c.ndata + (c.nancillae + 1) - 1 = t := by omega
    unfold Circ.setGarbage
    simp only [Circ.nqubits, hidx, herase, hset]
    refine ⟨?_, trivial, ?_⟩
    · have := hcore (c.garbage ++ [true]) (by rw [List.length_append, h.garbage]; rfl)
      simpa only [Circ.nqubits] using this
    · rw [backGarbage, hgt]; rfl

/-- Flags of qubits put back. -/
theorem putBack_spec {L : Circ α} (hL : CircOk L) (k t : Nat) (c s : Circ α) (h : Core L t c) (ht : t + k ≤ L.nqubits) :
    ∃ c', putBack ((List.range' t k).map (remOf L)) c s = some (c', (List.range' t k).foldl Circ.setGarbage s) ∧ Core L (t + k) c' ∧
      c'.ancillary = c.ancillary ++ List.replicate k true ∧ c'.garbage = c.garbage ++ (List.range' t k).map (backGarbage L) := by
  induction k generalizing t c s with
  | zero => exact ⟨c, rfl, h, by simp, by simp⟩
  | succ k ih =>
    obtain ⟨c1, h1, h2, h3, h4⟩ := h.putBack1 hL (by omega)
    obtain ⟨c2, g1, g2, g3, g4⟩ := ih (t + 1) c1 (s.setGarbage t) h2 (by omega)
    rw [List.range'_succ, List.map_cons, List.foldl_cons]
    unfold putBack
    rw [h1]
    simp only
    rw [h2.width, Nat.add_sub_cancel]
    refine ⟨c2, g1, by rw [show t + (k + 1) = t + 1 + k by omega]; exact g2, ?_, ?_⟩
    · rw [g3, h3, List.replicate_succ, List.append_assoc]; rfl
    · rw [g4, h4, List.map_cons, List.append_assoc]; rfl

theorem Core.refl {L : Circ α} (h : CircOk L) : Core L L.nqubits L where
  ops := rfl
  width := rfl
  keys := h.keys
  initial := fun p q => ⟨fun hq => ⟨hq, (h.onto q).1 ⟨p, hq⟩⟩, fun hq => hq.1⟩
  outKeys := h.outKeys
  output := fun p _ => ⟨fun hq => ⟨hq, fun q' hq' => (h.onto q').1 ⟨p, hq'⟩⟩, fun hq => hq.1⟩
  ancillary := h.ancillary
  garbage := h.garbage
  count := h.count

theorem getD_take_append (A B : List Bool) (m q : Nat) (hm : m ≤ A.length) (d : Bool) :
    (A.take m ++ B).getD q d = if q < m then A.getD q d else B.getD (q - m) d := by
  rw [List.getD_eq_getElem?_getD, List.getD_eq_getElem?_getD, List.getD_eq_getElem?_getD, List.getElem?_append]
  have : (A.take m).length = m := by rw [List.length_take]; omega
  rw [this]
  split
  · rw [List.getElem?_take, if_pos (by assumption)]
  · rfl

/-- Both loops leave the larger circuit as specified. -/
theorem surplus {L : Circ α} (hL : CircOk L) (m k : Nat) (hk : m + k = L.nqubits) (s : Circ α) :
    ∃ c c' removed, takeOut k L [] = some (c, removed) ∧
      putBack removed c s = some (c', (List.range' m k).foldl Circ.setGarbage s) ∧ SurplusMarked m L c' ∧ c'.ancillary.length = L.nqubits ∧
      c'.garbage.length = L.nqubits ∧ c'.ancillary.count true = c'.nancillae := by
  obtain ⟨c, h1, h2, h3, h4⟩ := takeOut_spec hL k m L [] (hk ▸ Core.refl hL) (by omega)
    (by rw [List.take_of_length_le]; rw [hL.ancillary]; omega) (by rw [List.take_of_length_le]; rw [hL.garbage]; omega)
  obtain ⟨c', g1, g2, g3, g4⟩ := putBack_spec hL k m c s h2 (by omega)
  have hkm : m ≤ L.nqubits := by omega
  rw [hk] at g2
  have hinit : c'.initialLayout = L.initialLayout := by
    refine Layout.ext g2.keys hL.keys ?_
    intro p q
    rw [g2.initial]
    exact ⟨fun h => h.1, fun h => ⟨h, (hL.onto q).1 ⟨p, h⟩⟩⟩
  have hout : c'.outputPermutation = L.outputPermutation := by
    refine Layout.ext g2.outKeys hL.outKeys ?_
    intro p q
    rw [g2.output]
    exact ⟨fun h => h.1, fun h => ⟨h, fun q' hq' => (hL.onto q').1 ⟨p, hq'⟩⟩⟩
  have hanc : ∀ q, q < L.nqubits → c'.isAncillary q = (decide (m ≤ q) || L.isAncillary q) := by
    intro q hq
    rw [Circ.isAncillary, g3, h3, getD_take_append _ _ _ _ (by rw [hL.ancillary]; omega)]
    by_cases hqm : q < m
    · rw [if_pos hqm]
      simp [show ¬ m ≤ q by omega, Circ.isAncillary]
    · rw [if_neg hqm, List.getD_eq_getElem?_getD, List.getElem?_replicate, if_pos (by omega)]
      simp [show m ≤ q by omega]
  have hgar : ∀ q, q < L.nqubits → c'.isGarbage q = if q < m then L.isGarbage q else backGarbage L q := by
    intro q hq
    rw [Circ.isGarbage, g4, h4, getD_take_append _ _ _ _ (by rw [hL.garbage]; omega)]
    by_cases hqm : q < m
    · rw [if_pos hqm, if_pos hqm]; rfl
    · rw [if_neg hqm, if_neg hqm, List.getD_eq_getElem?_getD, List.getElem?_map, List.getElem?_range' (by omega)]
      simp only [Option.map_some, Option.getD_some]
      congr 1
      omega
  refine ⟨c, c', (List.range' m k).map (remOf L), by rw [h1, List.append_nil], g1, ?_, g2.ancillary, g2.garbage, g2.count⟩
  · refine { ops := g2.ops, width := g2.width, initial := hinit, output := hout, ancillary := hanc, garbage := ?_ }
    intro q hq
    rw [hgar q hq]
    by_cases hqm : q < m
    · rw [if_pos hqm]
      constructor
      · exact Or.inl
      · rintro (h | h)
        · exact h
        · omega
    · rw [if_neg hqm, backGarbage, Bool.or_eq_true, Option.isNone_iff_eq_none, Layout.get_none (Layout.nodup_of_lt hL.outKeys)]
      have hp := physOf_mem hL hq
      constructor
      · rintro (h | h)
        · exact Or.inl h
        · exact Or.inr ⟨by omega, _, hp, h⟩
      · rintro (h | ⟨_, p, h5, h6⟩)
        · exact Or.inl h
        · rw [Layout.value_inj hL.inj h5 hp] at h6
          exact Or.inr h6

/-! ## The smaller circuit -/

theorem foldl_insert_spec (l : Layout) (hk : (l.map Prod.fst).Pairwise (· < ·)) (m k : Nat) :
    (((List.range k).foldl (fun l i => Layout.insert l (m + i) (m + i)) l).map Prod.fst).Pairwise (· < ·) ∧
    ∀ p q, (p, q) ∈ (List.range k).foldl (fun l i => Layout.insert l (m + i) (m + i)) l ↔
      (p, q) ∈ l ∨ (q = p ∧ m ≤ p ∧ p < m + k ∧ ∀ q', (p, q') ∉ l) := by
  induction k with
  | zero =>
    refine ⟨hk, ?_⟩
    intro p q
    show (p, q) ∈ l ↔ _
    constructor
    · exact Or.inl
    · rintro (h | ⟨_, h1, h2, _⟩)
      · exact h
      · omega
  | succ k ih =>
    rw [List.range_succ, List.foldl_append, List.foldl_cons, List.foldl_nil]
    obtain ⟨ih1, ih2⟩ := ih
    by_cases hex : ∃ w, (m + k, w) ∈ l
    · obtain ⟨w, hw⟩ := hex
      rw [Layout.insert_old ih1 ((ih2 _ _).2 (Or.inl hw))]
      refine ⟨ih1, ?_⟩
      intro p q
      rw [ih2]
      constructor
      · rintro (h | ⟨h1, h2, h3, h4⟩)
        · exact Or.inl h
        · exact Or.inr ⟨h1, h2, by omega, h4⟩
      · rintro (h | ⟨h1, h2, h3, h4⟩)
        · exact Or.inl h
        · have : p ≠ m + k := by rintro rfl; exact h4 w hw
          exact Or.inr ⟨h1, h2, by omega, h4⟩
    · have hno : ∀ w, (m + k, w) ∉ (List.range k).foldl (fun l i => Layout.insert l (m + i) (m + i)) l := by
        intro w hw
        rcases (ih2 _ _).1 hw with h | ⟨_, _, h3, _⟩
        · exact hex ⟨w, h⟩
        · omega
      have hins := Layout.insert_new (v := m + k) ih1 hno
      refine ⟨hins.2.1, ?_⟩
      intro p q
      rw [hins.1, ih2]
      constructor
      · rintro ((h | ⟨h1, h2, h3, h4⟩) | ⟨rfl, rfl⟩)
        · exact Or.inl h
        · exact Or.inr ⟨h1, h2, by omega, h4⟩
        · exact Or.inr ⟨rfl, by omega, by omega, fun q' hq' => hex ⟨q', hq'⟩⟩
      · rintro (h | ⟨h1, h2, h3, h4⟩)
        · exact Or.inl (Or.inl h)
        · by_cases hp : p = m + k
          · exact Or.inr ⟨hp, by omega⟩
          · exact Or.inl (Or.inr ⟨h1, h2, by omega, h4⟩)

theorem foldl_setGarbage (ts : List Nat) (s : Circ α) :
    ts.foldl Circ.setGarbage s = { s with garbage := ts.foldl (fun g t => g.set t true) s.garbage
                                          outputPermutation := ts.foldl Layout.eraseValue s.outputPermutation } := by
  induction ts generalizing s with
  | nil => rfl
  | cons t ts ih => rw [List.foldl_cons, ih]; rfl

theorem foldl_eraseValue_spec (ts : List Nat) (l : Layout) (hk : (l.map Prod.fst).Pairwise (· < ·)) (hv : (l.map Prod.snd).Nodup) :
    ((ts.foldl Layout.eraseValue l).map Prod.fst).Pairwise (· < ·) ∧
    ∀ p q, (p, q) ∈ ts.foldl Layout.eraseValue l ↔ (p, q) ∈ l ∧ q ∉ ts := by
  induction ts generalizing l with
  | nil => exact ⟨hk, by simp⟩
  | cons t ts ih =>
    obtain ⟨h1, h2⟩ := ih (l.eraseValue t) (Layout.eraseValue_keys hk) (Layout.eraseValue_vals hv)
    refine ⟨h1, ?_⟩
    intro p q
    rw [List.foldl_cons, h2, Layout.mem_eraseValue hv]
    simp only [List.mem_cons, not_or]
    tauto

theorem foldl_set_spec (ts : List Nat) (g : List Bool) :
    (ts.foldl (fun g t => g.set t true) g).length = g.length ∧
    ∀ q, q < g.length → (ts.foldl (fun g t => g.set t true) g).getD q false = (decide (q ∈ ts) || g.getD q false) := by
  induction ts generalizing g with
  | nil => simp
  | cons t ts ih =>
    obtain ⟨h1, h2⟩ := ih (g.set t true)
    refine ⟨by rw [List.foldl_cons, h1, List.length_set], ?_⟩
    intro q hq
    rw [List.foldl_cons, h2 q (by rw [List.length_set]; exact hq)]
    by_cases hqt : q = t
    · subst hqt
      simp [List.getD_eq_getElem?_getD, hq]
    · have : ¬ t = q := fun e => hqt e.symm
      simp [List.getD_eq_getElem?_getD, hqt, this]

/-- The smaller circuit is padded as specified. -/
theorem padded {S : Circ α} (hS : CircOk S) (k : Nat) :
    Padded (S.nqubits + k) S ((List.range' S.nqubits k).foldl Circ.setGarbage (S.addAncillaryRegister k)) ∧
    ((List.range' S.nqubits k).foldl Circ.setGarbage (S.addAncillaryRegister k)).ancillary.length = S.nqubits + k ∧
    ((List.range' S.nqubits k).foldl Circ.setGarbage (S.addAncillaryRegister k)).garbage.length = S.nqubits + k ∧
    ((List.range' S.nqubits k).foldl Circ.setGarbage (S.addAncillaryRegister k)).ndata = S.ndata := by
  rw [foldl_setGarbage]
  have hi := foldl_insert_spec S.initialLayout hS.keys S.nqubits k
  have ho := foldl_insert_spec S.outputPermutation hS.outKeys S.nqubits k
  have hov : (((List.range k).foldl (fun l i => Layout.insert l (S.nqubits + i) (S.nqubits + i)) S.outputPermutation).map Prod.snd).Nodup := by
    have hpw := (List.pairwise_map.1 ho.1)
    have hnd := hpw.imp (S := fun a b => a ≠ b) (fun h e => by rw [e] at h; omega)
    refine List.Nodup.map_on ?_ hnd
    rintro ⟨a, b⟩ ha ⟨a', b'⟩ hb hab
    simp only at hab
    subst hab
    rcases (ho.2 _ _).1 ha with h1 | ⟨h1, h2, h3, h4⟩ <;> rcases (ho.2 _ _).1 hb with g1 | ⟨g1, g2, g3, g4⟩
    · rw [Layout.value_inj hS.outInj h1 g1]
    · have := hS.outRange _ _ h1; omega
    · have := hS.outRange _ _ g1; omega
    · rw [← h1, ← g1]
  have he := foldl_eraseValue_spec (List.range' S.nqubits k) _ ho.1 hov
  have hg := foldl_set_spec (List.range' S.nqubits k) (S.garbage ++ List.replicate k false)
  have hgl : (S.garbage ++ List.replicate k false).length = S.nqubits + k := by
    rw [List.length_append, hS.garbage, List.length_replicate]
  have hal : (S.ancillary ++ List.replicate k true).length = S.nqubits + k := by
    rw [List.length_append, hS.ancillary, List.length_replicate]
  refine ⟨?_, hal, hg.1.trans hgl, rfl⟩
  refine { ops := rfl, width := ?_, keys := hi.1, initial := hi.2, output := ?_, old := ?_, new := ?_ }
  · show S.ndata + (S.nancillae + k) = S.ndata + S.nancillae + k
    omega
  · refine Layout.ext he.1 hS.outKeys ?_
    intro p q
    show (p, q) ∈ (List.range' S.nqubits k).foldl Layout.eraseValue
      ((List.range k).foldl (fun l i => Layout.insert l (S.nqubits + i) (S.nqubits + i)) S.outputPermutation) ↔ _
    rw [he.2, ho.2]
    simp only [List.mem_range'_1]
    constructor
    · rintro ⟨h | ⟨h1, h2, h3, _⟩, h5⟩
      · exact h
      · exact absurd ⟨by omega, by omega⟩ h5
    · intro h
      have := hS.outRange _ _ h
      exact ⟨Or.inl h, by omega⟩
  · intro q hq
    constructor
    · show (S.ancillary ++ List.replicate k true).getD q false = S.ancillary.getD q false
      rw [List.getD_eq_getElem?_getD, List.getElem?_append_left (by rw [hS.ancillary]; exact hq), ← List.getD_eq_getElem?_getD]
    · show ((List.range' S.nqubits k).foldl (fun g t => g.set t true) (S.garbage ++ List.replicate k false)).getD q false = _
      rw [hg.2 q (by omega)]
      have : q ∉ List.range' S.nqubits k := by rw [List.mem_range'_1]; omega
      simp only [this, decide_false, Bool.false_or]
      rw [List.getD_eq_getElem?_getD, List.getElem?_append_left (by rw [hS.garbage]; exact hq), ← List.getD_eq_getElem?_getD]
      rfl
  · intro q h1 h2
    constructor
    · show (S.ancillary ++ List.replicate k true).getD q false = true
      rw [List.getD_eq_getElem?_getD, List.getElem?_append_right (by rw [hS.ancillary]; exact h1), hS.ancillary,
        List.getElem?_replicate, if_pos (by omega)]
      rfl
    · show ((List.range' S.nqubits k).foldl (fun g t => g.set t true) (S.garbage ++ List.replicate k false)).getD q false = _
      rw [hg.2 q (by omega)]
      have : q ∈ List.range' S.nqubits k := by rw [List.mem_range'_1]; omega
      simp [this]

end QCEC.Prep
