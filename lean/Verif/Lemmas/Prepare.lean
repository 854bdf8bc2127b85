import Verif.Spec.Prepare
import Mathlib.Data.List.Nodup
import Mathlib.Data.List.Pairwise
import Mathlib.Tactic.ByContra
/-!
# Lemmas about layouts and about taking a qubit away
-/
namespace QCEC.Prep
open QCEC QCEC.Spec

variable {α : Type}

namespace Layout

theorem get_iff {l : Layout} (hk : (l.map Prod.fst).Nodup) {k v : Nat} : l.get k = some v ↔ (k, v) ∈ l := by
  induction l with
  | nil => simp [get]
  | cons e r ih =>
    obtain ⟨a, b⟩ := e
    simp only [List.map_cons, List.nodup_cons] at hk
    unfold get at ih ⊢
    rw [List.find?_cons]
    by_cases h : a = k
    · subst h
      simp only [BEq.rfl, Option.map_some, Option.some.injEq, List.mem_cons, Prod.mk.injEq, true_and]
      constructor
      · intro h; exact Or.inl h.symm
      · rintro (h | h)
        · exact h.symm
        · exact absurd (List.mem_map_of_mem (f := Prod.fst) h) hk.1
    · simp only [show (a == k) = false by simpa using h]
      rw [ih hk.2]
      simp only [List.mem_cons, Prod.mk.injEq]
      constructor
      · exact Or.inr
      · rintro (h' | h')
        · exact absurd h'.1.symm h
        · exact h'

theorem get_none {l : Layout} (hk : (l.map Prod.fst).Nodup) {k : Nat} : l.get k = none ↔ ∀ v, (k, v) ∉ l := by
  constructor
  · intro h v hv
    rw [← get_iff hk, h] at hv
    simp at hv
  · intro h
    cases hg : l.get k with
    | none => rfl
    | some v => exact absurd ((get_iff hk).1 hg) (h v)

theorem keyOf_iff {l : Layout} (hv : (l.map Prod.snd).Nodup) {k v : Nat} : l.keyOf v = some k ↔ (k, v) ∈ l := by
  induction l with
  | nil => simp [keyOf]
  | cons e r ih =>
    obtain ⟨a, b⟩ := e
    simp only [List.map_cons, List.nodup_cons] at hv
    unfold keyOf at ih ⊢
    rw [List.find?_cons]
    by_cases h : b = v
    · subst h
      simp only [BEq.rfl, Option.map_some, Option.some.injEq, List.mem_cons, Prod.mk.injEq, and_true]
      constructor
      · intro h; exact Or.inl h.symm
      · rintro (h | h)
        · exact h.symm
        · exact absurd (List.mem_map_of_mem (f := Prod.snd) h) hv.1
    · simp only [show (b == v) = false by simpa using h]
      rw [ih hv.2]
      simp only [List.mem_cons, Prod.mk.injEq]
      constructor
      · exact Or.inr
      · rintro (h' | h')
        · exact absurd h'.2.symm h
        · exact h'

theorem keyOf_none {l : Layout} {v : Nat} : l.keyOf v = none ↔ ∀ k, (k, v) ∉ l := by
  simp only [keyOf, Option.map_eq_none_iff, List.find?_eq_none, beq_iff_eq]
  constructor
  · intro h k hk; exact h _ hk rfl
  · rintro h ⟨a, b⟩ hx rfl; exact h a hx

theorem hasValue_iff {l : Layout} {v : Nat} : l.hasValue v = true ↔ ∃ k, (k, v) ∈ l := by
  simp [hasValue]

theorem mem_erase {l : Layout} {k k' v : Nat} : (k', v) ∈ l.erase k ↔ (k', v) ∈ l ∧ k' ≠ k := by
  simp [erase]

theorem mem_decAbove {l : Layout} {i k v : Nat} :
    (k, v) ∈ l.decAbove i ↔ ∃ q, (k, q) ∈ l ∧ v = if q > i then q - 1 else q := by
  simp only [decAbove, List.mem_map, Prod.exists, Prod.mk.injEq]
  constructor
  · rintro ⟨a, b, h, rfl, rfl⟩; exact ⟨b, h, rfl⟩
  · rintro ⟨q, h, rfl⟩; exact ⟨k, q, h, rfl, rfl⟩

theorem erase_keys {l : Layout} {k : Nat} (h : (l.map Prod.fst).Pairwise (· < ·)) : ((l.erase k).map Prod.fst).Pairwise (· < ·) :=
  List.Pairwise.sublist (List.Sublist.map _ List.filter_sublist) h

theorem erase_vals {l : Layout} {k : Nat} (h : (l.map Prod.snd).Nodup) : ((l.erase k).map Prod.snd).Nodup :=
  List.Nodup.sublist (List.Sublist.map _ List.filter_sublist) h

theorem decAbove_fst (l : Layout) (i : Nat) : (l.decAbove i).map Prod.fst = l.map Prod.fst := by
  simp [decAbove, Function.comp_def]

theorem nodup_of_lt {l : List Nat} (h : l.Pairwise (· < ·)) : l.Nodup := h.imp (fun h => Nat.ne_of_lt h)

theorem value_inj {l : Layout} (h : (l.map Prod.snd).Nodup) {a b v : Nat} (ha : (a, v) ∈ l) (hb : (b, v) ∈ l) : a = b := by
  have := (keyOf_iff h).2 ha
  rw [(keyOf_iff h).2 hb] at this
  exact (Option.some.inj this).symm

theorem key_inj {l : Layout} (h : (l.map Prod.fst).Nodup) {k v w : Nat} (ha : (k, v) ∈ l) (hb : (k, w) ∈ l) : v = w := by
  have := (get_iff h).2 ha
  rw [(get_iff h).2 hb] at this
  exact (Option.some.inj this).symm

theorem decAbove_vals {l : Layout} {i : Nat} (h : (l.map Prod.snd).Nodup) (hi : ∀ k, (k, i) ∉ l) :
    ((l.decAbove i).map Prod.snd).Nodup := by
  have : (l.decAbove i).map Prod.snd = (l.map Prod.snd).map (fun q => if q > i then q - 1 else q) := by
    simp [decAbove, Function.comp_def]
  rw [this]
  refine List.Nodup.map_on ?_ h
  intro a ha b hb hab
  have hne : ∀ v ∈ l.map Prod.snd, v ≠ i := by
    intro v hv heq
    obtain ⟨⟨x, y⟩, hx, hy⟩ := List.mem_map.1 hv
    exact hi x (by simpa [← heq, ← hy] using hx)
  have h1 := hne a ha
  have h2 := hne b hb
  split at hab <;> split at hab <;> omega

theorem insert_new {l : Layout} {k v : Nat} (hk : (l.map Prod.fst).Pairwise (· < ·)) (hn : ∀ w, (k, w) ∉ l) :
    (∀ k' v', (k', v') ∈ l.insert k v ↔ (k', v') ∈ l ∨ (k' = k ∧ v' = v)) ∧ ((l.insert k v).map Prod.fst).Pairwise (· < ·) ∧
    ((∀ e, e ∈ (l.insert k v).map Prod.fst ↔ e = k ∨ e ∈ l.map Prod.fst)) := by
  induction l with
  | nil => simp [insert]
  | cons e r ih =>
    obtain ⟨a, b⟩ := e
    simp only [List.map_cons, List.pairwise_cons] at hk
    obtain ⟨i1, i2, i3⟩ := ih hk.2 (fun w hw => hn w (by simp [hw]))
    simp only [insert]
    split
    · rename_i h
      refine ⟨?_, ?_, ?_⟩
      · intro k' v'; simp only [List.mem_cons, Prod.mk.injEq]; tauto
      · simp only [List.map_cons, List.pairwise_cons]
        refine ⟨?_, hk.1, hk.2⟩
        intro x hx
        rcases List.mem_cons.1 hx with hx | hx
        · rw [hx]; exact h
        · exact Nat.lt_trans h (hk.1 x hx)
      · intro e; simp
    · rename_i h
      split
      · rename_i h'
        exact absurd (List.mem_cons_self) (h' ▸ hn b)
      · rename_i h'
        refine ⟨?_, ?_, ?_⟩
        · intro k' v'; rw [List.mem_cons, i1]; simp only [List.mem_cons]; tauto
        · simp only [List.map_cons, List.pairwise_cons]
          refine ⟨?_, i2⟩
          intro x hx
          rcases (i3 x).1 hx with hx | hx
          · have : ¬ k < a := h
            omega
          · exact hk.1 x hx
        · intro e
          simp only [List.map_cons, List.mem_cons, i3]
          tauto

theorem insert_old {l : Layout} {k v w : Nat} (hk : (l.map Prod.fst).Pairwise (· < ·)) (hw : (k, w) ∈ l) : l.insert k v = l := by
  induction l with
  | nil => simp at hw
  | cons e r ih =>
    obtain ⟨a, b⟩ := e
    simp only [List.map_cons, List.pairwise_cons] at hk
    simp only [insert]
    rcases List.mem_cons.1 hw with hw | hw
    · cases hw; simp
    · have := hk.1 k (List.mem_map_of_mem (f := Prod.fst) hw)
      rw [if_neg (by omega), if_neg (by omega), ih hk.2 hw]

theorem mem_eraseValue {l : Layout} (h : (l.map Prod.snd).Nodup) {v k' v' : Nat} :
    (k', v') ∈ l.eraseValue v ↔ (k', v') ∈ l ∧ v' ≠ v := by
  induction l with
  | nil => simp [eraseValue]
  | cons e r ih =>
    obtain ⟨a, b⟩ := e
    simp only [List.map_cons, List.nodup_cons] at h
    unfold eraseValue at ih ⊢
    rw [List.eraseP_cons]
    by_cases hb : b = v
    · subst hb
      simp only [BEq.rfl, cond_true, List.mem_cons, Prod.mk.injEq]
      constructor
      · intro hm
        exact ⟨Or.inr hm, fun he => h.1 (he ▸ List.mem_map_of_mem (f := Prod.snd) hm)⟩
      · rintro ⟨hm | hm, hne⟩
        · exact absurd hm.2 hne
        · exact hm
    · simp only [show (b == v) = false by simpa using hb, cond_false, List.mem_cons, ih h.2, Prod.mk.injEq]
      constructor
      · rintro (⟨rfl, rfl⟩ | h')
        · exact ⟨Or.inl ⟨rfl, rfl⟩, hb⟩
        · exact ⟨Or.inr h'.1, h'.2⟩
      · rintro ⟨h1 | h1, h2⟩
        · exact Or.inl h1
        · exact Or.inr ⟨h1, h2⟩

theorem eraseValue_keys {l : Layout} {v : Nat} (h : (l.map Prod.fst).Pairwise (· < ·)) :
    ((l.eraseValue v).map Prod.fst).Pairwise (· < ·) :=
  List.Pairwise.sublist (List.Sublist.map _ List.eraseP_sublist) h

theorem eraseValue_vals {l : Layout} {v : Nat} (h : (l.map Prod.snd).Nodup) : ((l.eraseValue v).map Prod.snd).Nodup :=
  List.Nodup.sublist (List.Sublist.map _ List.eraseP_sublist) h

/-- Two ordered layouts with the same entries are the same. -/
theorem ext {l m : Layout} (hl : (l.map Prod.fst).Pairwise (· < ·)) (hm : (m.map Prod.fst).Pairwise (· < ·))
    (h : ∀ k v, (k, v) ∈ l ↔ (k, v) ∈ m) : l = m := by
  have hl' : l.Pairwise (fun a b => a.1 < b.1) := List.pairwise_map.1 hl
  have hm' : m.Pairwise (fun a b => a.1 < b.1) := List.pairwise_map.1 hm
  have nl : l.Nodup := hl'.imp (fun h e => by rw [e] at h; omega)
  have nm : m.Nodup := hm'.imp (fun h e => by rw [e] at h; omega)
  have hp : l.Perm m := (List.perm_ext_iff_of_nodup nl nm).2 (fun ⟨a, b⟩ => h a b)
  exact hp.eq_of_pairwise (fun a b _ _ h1 h2 => by omega) hl' hm'

end Layout

/-! ## New labels -/

theorem newIndex_zero (R : List Nat) : newIndex R 0 = 0 := rfl

theorem newIndex_succ (R : List Nat) (q : Nat) : newIndex R (q + 1) = newIndex R q + if q ∈ R then 0 else 1 := by
  unfold newIndex
  rw [List.range_succ, List.filter_append, List.length_append]
  by_cases h : q ∈ R <;> simp [h]

theorem newIndex_nil (q : Nat) : newIndex [] q = q := by
  induction q with
  | zero => rfl
  | succ q ih => rw [newIndex_succ, ih]; simp

theorem newIndex_mono (R : List Nat) {a b : Nat} (h : a ≤ b) : newIndex R a ≤ newIndex R b := by
  induction h with
  | refl => exact Nat.le_refl _
  | step h ih => rw [Nat.succ_eq_add_one, newIndex_succ]; omega

theorem newIndex_lt {R : List Nat} {a b : Nat} (h : a < b) (ha : a ∉ R) : newIndex R a < newIndex R b := by
  have h1 := newIndex_succ R a
  rw [if_neg ha] at h1
  have h2 := newIndex_mono R h
  simp only [Nat.succ_eq_add_one] at h2
  omega

theorem newIndex_inj {R : List Nat} {a b : Nat} (ha : a ∉ R) (hb : b ∉ R) (h : newIndex R a = newIndex R b) : a = b := by
  rcases Nat.lt_trichotomy a b with h' | h' | h'
  · have := newIndex_lt h' ha; omega
  · exact h'
  · have := newIndex_lt h' hb; omega

/-- Taking one more qubit away shifts the labels above it. -/
theorem newIndex_cons {R : List Nat} {a : Nat} (ha : a ∉ R) (q : Nat) :
    newIndex (a :: R) q = if a < q then newIndex R q - 1 else newIndex R q := by
  induction q with
  | zero => simp [newIndex_zero]
  | succ q ih =>
    rw [newIndex_succ, newIndex_succ, ih]
    by_cases h1 : a < q
    · have : 0 < newIndex R q := Nat.lt_of_le_of_lt (Nat.zero_le _) (newIndex_lt h1 ha)
      have h2 : ¬ q = a := by omega
      have h5 : a < q + 1 := by omega
      by_cases h3 : q ∈ R <;> simp [h1, h2, h3, h5] <;> omega
    · by_cases h2 : q = a
      · subst h2; simp [ha]
      · have h4 : ¬ a < q + 1 := by omega
        by_cases h3 : q ∈ R <;> simp [h1, h2, h3, h4]

/-! ## Taking a qubit away -/

/-- Label of `q` after `l` was taken away. -/
def dec (l q : Nat) : Nat := if q > l then q - 1 else q

theorem getD_eraseIdx {β : Type} (L : List β) (d : β) {l q : Nat} (hl : l < L.length) (h : q ≠ l) :
    (L.eraseIdx l).getD (dec l q) d = L.getD q d := by
  rw [List.getD_eq_getElem?_getD, List.getD_eq_getElem?_getD, List.getElem?_eraseIdx]
  unfold dec
  by_cases h1 : q > l
  · rw [if_pos h1, if_neg (by omega), show q - 1 + 1 = q by omega]
  · rw [if_neg h1, if_pos (by omega)]

theorem count_eraseIdx (L : List Bool) {l : Nat} (hl : l < L.length) :
    (L.eraseIdx l).count true + (if L.getD l false then 1 else 0) = L.count true := by
  induction L generalizing l with
  | nil => simp at hl
  | cons b r ih =>
    cases l with
    | zero => cases b <;> simp
    | succ l =>
      have := ih (l := l) (by simpa using hl)
      simp only [List.eraseIdx_cons_succ, List.count_cons, List.getD_cons_succ]
      omega

/-- What `removeQubit` followed by the two `decrement...` calls does. -/
structure TakenAway (c : Circ α) (p l : Nat) (c' : Circ α) : Prop where
  ops : c'.ops = c.ops
  width : c'.nqubits + 1 = c.nqubits
  initial : ∀ p' v, (p', v) ∈ c'.initialLayout ↔ ∃ q, (p', q) ∈ c.initialLayout ∧ q ≠ l ∧ v = dec l q
  output : ∀ p' v, (p', v) ∈ c'.outputPermutation ↔ ∃ q, (p', q) ∈ c.outputPermutation ∧ q ≠ l ∧ v = dec l q
  ancFlags : ∀ q, q < c.nqubits → q ≠ l → c'.isAncillary (dec l q) = c.isAncillary q
  garFlags : ∀ q, q < c.nqubits → q ≠ l → c'.isGarbage (dec l q) = c.isGarbage q
  ok : CircOk c'

theorem safe_iff {c : Circ α} (h : CircOk c) {p l : Nat} : c.safeToRemove p l = true ↔
    StaysPut c p l := by
  unfold StaysPut
  have hk := Layout.nodup_of_lt h.outKeys
  rw [Circ.safeToRemove, Bool.or_eq_true, Bool.and_eq_true, Option.isNone_iff_eq_none, Layout.get_none hk, decide_eq_true_eq,
    Layout.get_iff hk, Bool.not_eq_true', ← Bool.not_eq_true, Layout.hasValue_iff, not_exists, or_comm]

theorem removeQubit_spec {c : Circ α} (h : CircOk c) {p l : Nat} (hp : (p, l) ∈ c.initialLayout) (hs : c.safeToRemove p l = true) :
    ∃ r, c.removeQubit l = some r ∧ TakenAway c p l (r.1.decAbove l) := by
  have hl : l < c.nqubits := (h.onto l).1 ⟨p, hp⟩
  have hkey := (Layout.keyOf_iff h.inj).2 hp
  have hanc : c.isAncillary l = true → 0 < c.nancillae := by
    intro ha
    rw [← h.count]
    have := count_eraseIdx c.ancillary (l := l) (by rw [h.ancillary]; exact hl)
    rw [show c.ancillary.getD l false = true from ha] at this
    simp at this
    omega
  have hdata : c.isAncillary l = false → 0 < c.ndata := by
    intro ha
    have h1 : c.ancillary.count true < c.ancillary.length := by
      refine Nat.lt_of_le_of_ne List.count_le_length ?_
      intro heq
      have := List.count_eq_length.1 heq
      have hg : c.ancillary.getD l false = true := by
        rw [List.getD_eq_getElem?_getD, List.getElem?_eq_getElem (by rw [h.ancillary]; exact hl)]
        exact (this _ (List.getElem_mem _)).symm
      rw [Circ.isAncillary, hg] at ha
      simp at ha
    rw [h.count, h.ancillary, Circ.nqubits] at h1
    omega
  rw [safe_iff h] at hs
  unfold Circ.removeQubit
  rw [hkey]
  refine ⟨_, rfl, ?_⟩
  have hinit : ∀ p' v, (p', v) ∈ (c.initialLayout.erase p).decAbove l ↔ ∃ q, (p', q) ∈ c.initialLayout ∧ q ≠ l ∧ v = dec l q := by
    intro p' v
    rw [Layout.mem_decAbove]
    simp only [Layout.mem_erase]
    constructor
    · rintro ⟨q, ⟨h1, h2⟩, h3⟩
      exact ⟨q, h1, fun e => h2 (Layout.value_inj h.inj (e ▸ h1) hp), h3⟩
    · rintro ⟨q, h1, h2, h3⟩
      exact ⟨q, ⟨h1, fun e => h2 (Layout.key_inj (Layout.nodup_of_lt h.keys) (e ▸ h1) hp)⟩, h3⟩
  have hnoOut : ∀ k, (k, l) ∉ c.outputPermutation.erase p := by
    intro k hk
    rw [Layout.mem_erase] at hk
    rcases hs with hs | hs
    · exact hk.2 (Layout.value_inj h.outInj hk.1 hs)
    · exact hs.2 k hk.1
  have hnoIn : ∀ k, (k, l) ∉ c.initialLayout.erase p := by
    intro k hk
    rw [Layout.mem_erase] at hk
    exact hk.2 (Layout.value_inj h.inj hk.1 hp)
  have hout : ∀ p' v, (p', v) ∈ (c.outputPermutation.erase p).decAbove l ↔
      ∃ q, (p', q) ∈ c.outputPermutation ∧ q ≠ l ∧ v = dec l q := by
    intro p' v
    rw [Layout.mem_decAbove]
    constructor
    · rintro ⟨q, h1, h3⟩
      refine ⟨q, (Layout.mem_erase.1 h1).1, fun e => hnoOut p' (e ▸ h1), h3⟩
    · rintro ⟨q, h1, h2, h3⟩
      refine ⟨q, Layout.mem_erase.2 ⟨h1, fun e => ?_⟩, h3⟩
      subst e
      rcases hs with hs | hs
      · exact h2 (Layout.key_inj (Layout.nodup_of_lt h.outKeys) h1 hs)
      · exact hs.1 _ h1
  have hwidth : (if c.isAncillary l = true then c.ndata else c.ndata - 1) +
      (if c.isAncillary l = true then c.nancillae - 1 else c.nancillae) + 1 = c.nqubits := by
    rw [Circ.nqubits]
    cases ha : c.isAncillary l with
    | true => have := hanc ha; simp; omega
    | false => have := hdata ha; simp; omega
  have hwidth' : (if c.isAncillary l = true then c.ndata else c.ndata - 1) + (if c.isAncillary l = true then c.nancillae - 1 else c.nancillae) = c.nqubits - 1 := by omega
  have hdl : ∀ v w : Nat, v ≠ l → v < c.nqubits → dec l v < c.nqubits - 1 := by
    intro v _ h1 h2
    unfold dec
    split <;> omega
  refine
    { ops := rfl
      width := hwidth
      initial := hinit
      output := hout
      ancFlags := fun q _ hne => getD_eraseIdx _ _ (by rw [h.ancillary]; exact hl) hne
      garFlags := fun q _ hne => getD_eraseIdx _ _ (by rw [h.garbage]; exact hl) hne
      ok := ?_ }
  refine
    { keys := ?_, inj := Layout.decAbove_vals (Layout.erase_vals h.inj) hnoIn, onto := ?_, outKeys := ?_,
      outInj := Layout.decAbove_vals (Layout.erase_vals h.outInj) hnoOut, outRange := ?_, outGarbage := ?_,
      ancillary := ?_, garbage := ?_, count := ?_ }
  · show (((c.initialLayout.erase p).decAbove l).map Prod.fst).Pairwise (· < ·)
    rw [Layout.decAbove_fst]; exact Layout.erase_keys h.keys
  · intro v
    show (∃ p', (p', v) ∈ (c.initialLayout.erase p).decAbove l) ↔ v <
      (if c.isAncillary l = true then c.ndata else c.ndata - 1) + (if c.isAncillary l = true then c.nancillae - 1 else c.nancillae)
    rw [hwidth']
    simp only [hinit]
    constructor
    · rintro ⟨p', q, h1, h2, rfl⟩
      exact hdl q 0 h2 ((h.onto q).1 ⟨p', h1⟩)
    · intro hv
      by_cases hvl : v < l
      · obtain ⟨p', hp'⟩ := (h.onto v).2 (by omega)
        exact ⟨p', v, hp', by omega, by unfold dec; rw [if_neg (by omega)]⟩
      · obtain ⟨p', hp'⟩ := (h.onto (v + 1)).2 (by omega)
        exact ⟨p', v + 1, hp', by omega, by unfold dec; rw [if_pos (by omega)]; omega⟩
  · show (((c.outputPermutation.erase p).decAbove l).map Prod.fst).Pairwise (· < ·)
    rw [Layout.decAbove_fst]; exact Layout.erase_keys h.outKeys
  · intro p' v hv
    show v < (if c.isAncillary l = true then c.ndata else c.ndata - 1) + (if c.isAncillary l = true then c.nancillae - 1 else c.nancillae)
    rw [hwidth']
    obtain ⟨q, h1, h2, rfl⟩ := (hout p' v).1 hv
    exact hdl q 0 h2 (h.outRange p' q h1)
  · intro p' v hv
    obtain ⟨q, h1, h2, rfl⟩ := (hout p' v).1 hv
    exact (getD_eraseIdx _ _ (by rw [h.garbage]; exact hl) h2).trans (h.outGarbage p' q h1)
  · show (c.ancillary.eraseIdx l).length =
      (if c.isAncillary l = true then c.ndata else c.ndata - 1) + (if c.isAncillary l = true then c.nancillae - 1 else c.nancillae)
    rw [hwidth', List.length_eraseIdx_of_lt (by rw [h.ancillary]; exact hl), h.ancillary]
  · show (c.garbage.eraseIdx l).length =
      (if c.isAncillary l = true then c.ndata else c.ndata - 1) + (if c.isAncillary l = true then c.nancillae - 1 else c.nancillae)
    rw [hwidth', List.length_eraseIdx_of_lt (by rw [h.garbage]; exact hl), h.garbage]
  · show (c.ancillary.eraseIdx l).count true = if c.isAncillary l = true then c.nancillae - 1 else c.nancillae
    have := count_eraseIdx c.ancillary (l := l) (by rw [h.ancillary]; exact hl)
    rw [h.count] at this
    cases ha : c.isAncillary l with
    | true => rw [show c.ancillary.getD l false = true from ha] at this; simp at this ⊢; omega
    | false => rw [show c.ancillary.getD l false = false from ha] at this; simp at this ⊢; omega

/-- Stripping does not change whether nothing happens to a kept qubit. -/
theorem _root_.QCEC.Spec.Stripped.staysPut {acts : α → Nat → Bool} {R : List Nat} {c cm : Circ α} (hc : CircOk c) (h : Stripped acts R c cm) {p q : Nat}
    (hq : (p, q) ∈ c.initialLayout) (hR : q ∉ R) : StaysPut cm p (newIndex R q) ↔ StaysPut c p q := by
  have hk : ∀ p' q', (p', q') ∈ c.outputPermutation → (p' = p ∨ q' = q) → q' ∉ R := by
    intro p' q' h1 h2 h3
    obtain ⟨pr, hpr⟩ := (hc.onto q').2 (hc.outRange _ _ h1)
    rcases (h.idle q' h3 pr hpr).2 with h5 | h5
    · have : pr = p' := Layout.value_inj hc.outInj h5 h1
      subst this
      rcases h2 with h2 | h2
      · subst h2
        exact hR (Layout.key_inj (Layout.nodup_of_lt hc.keys) hpr hq ▸ h3)
      · exact hR (h2 ▸ h3)
    · exact h5.2 _ h1
  constructor
  · rintro (hs | hs)
    · obtain ⟨q3, h3, h4, h5⟩ := (h.output _ _).1 hs
      exact Or.inl (newIndex_inj h4 hR h5.symm ▸ h3)
    · refine Or.inr ⟨?_, ?_⟩
      · intro q2 h3
        exact hs.1 _ ((h.output _ _).2 ⟨q2, h3, hk _ _ h3 (Or.inl rfl), rfl⟩)
      · intro p2 h3
        exact hs.2 p2 ((h.output _ _).2 ⟨_, h3, hR, rfl⟩)
  · rintro (hs | hs)
    · exact Or.inl ((h.output _ _).2 ⟨q, hs, hR, rfl⟩)
    · refine Or.inr ⟨?_, ?_⟩
      · intro q2 h3
        obtain ⟨q3, h4, _⟩ := (h.output _ _).1 h3
        exact hs.1 _ h4
      · intro p2 h3
        obtain ⟨q3, h4, h5, h6⟩ := (h.output _ _).1 h3
        exact hs.2 p2 (newIndex_inj h5 hR h6.symm ▸ h4)

theorem _root_.QCEC.Spec.Stripped.isIdle {acts : α → Nat → Bool} {R : List Nat} {c cm : Circ α} (h : Stripped acts R c cm) {p : Nat} :
    cm.isIdle acts p = true ↔ Untouched acts c p := by
  rw [Circ.isIdle, h.ops, List.all_eq_true]
  simp only [Bool.not_eq_true', Untouched]

/-- Steps compose: one more qubit taken away from a stripped circuit. -/
theorem _root_.QCEC.Spec.Stripped.take {acts : α → Nat → Bool} {R : List Nat} {c cm c' : Circ α} (hc : CircOk c) (h : Stripped acts R c cm) {p l : Nat}
    (hi : cm.isIdle acts p = true) (hs : StaysPut cm p l)
    (ht : TakenAway cm p l c') {q0 : Nat} (hq : (p, q0) ∈ c.initialLayout) (hR : q0 ∉ R) (hl : l = newIndex R q0) :
    Stripped acts (q0 :: R) c c' := by
  have hdec : ∀ q, q ∉ R → q ≠ q0 → dec l (newIndex R q) = newIndex (q0 :: R) q := by
    intro q h1 h2
    rw [newIndex_cons hR, hl]
    unfold dec
    rcases Nat.lt_trichotomy q q0 with h3 | h3 | h3
    · have := newIndex_lt h3 h1
      rw [if_neg (by omega), if_neg (by omega)]
    · exact absurd h3 h2
    · have := newIndex_lt h3 hR
      rw [if_pos (by omega), if_pos (by omega)]
  have hne : ∀ q, q ∉ R → (newIndex R q ≠ l ↔ q ≠ q0) := by
    intro q h1
    rw [hl]
    exact ⟨fun h e => h (e ▸ rfl), fun h e => h (newIndex_inj h1 hR e)⟩
  have hql : q0 < c.nqubits := (hc.onto q0).1 ⟨p, hq⟩
  refine
    { ops := ht.ops.trans h.ops
      idle := ?_, width := ?_, initial := ?_, output := ?_, flags := ?_ }
  · intro q h2 p' h1
    rcases List.mem_cons.1 h2 with e | h2
    · subst e
      have hpp : p' = p := Layout.value_inj hc.inj h1 hq
      subst hpp
      exact ⟨h.isIdle.1 hi, (h.staysPut hc hq hR).1 (hl ▸ hs)⟩
    · exact h.idle q h2 p' h1
  · have h1 := ht.width
    rw [h.width] at h1
    rw [newIndex_cons hR, if_pos hql]
    omega
  · intro p' v
    rw [ht.initial]
    constructor
    · rintro ⟨x, h1, h2, rfl⟩
      obtain ⟨q, h3, h4, rfl⟩ := (h.initial _ _).1 h1
      have h5 := (hne q h4).1 h2
      exact ⟨q, h3, by simp [h4, h5], hdec q h4 h5⟩
    · rintro ⟨q, h1, h2, rfl⟩
      simp only [List.mem_cons, not_or] at h2
      exact ⟨newIndex R q, (h.initial _ _).2 ⟨q, h1, h2.2, rfl⟩, (hne q h2.2).2 h2.1, (hdec q h2.2 h2.1).symm⟩
  · intro p' v
    rw [ht.output]
    constructor
    · rintro ⟨x, h1, h2, rfl⟩
      obtain ⟨q, h3, h4, rfl⟩ := (h.output _ _).1 h1
      have h5 := (hne q h4).1 h2
      exact ⟨q, h3, by simp [h4, h5], hdec q h4 h5⟩
    · rintro ⟨q, h1, h2, rfl⟩
      simp only [List.mem_cons, not_or] at h2
      exact ⟨newIndex R q, (h.output _ _).2 ⟨q, h1, h2.2, rfl⟩, (hne q h2.2).2 h2.1, (hdec q h2.2 h2.1).symm⟩
  · intro q h1 h2
    simp only [List.mem_cons, not_or] at h2
    rw [← hdec q h2.2 h2.1]
    have h3 : newIndex R q < cm.nqubits := by rw [h.width]; exact newIndex_lt h1 h2.2
    have h4 := (hne q h2.2).2 h2.1
    exact ⟨(ht.ancFlags _ h3 h4).trans (h.flags q h1 h2.2).1, (ht.garFlags _ h3 h4).trans (h.flags q h1 h2.2).2⟩

/-- A qubit the circuit does not have may be listed as removed. -/
theorem _root_.QCEC.Spec.Stripped.absent {acts : α → Nat → Bool} {R : List Nat} {c cm : Circ α} (hc : CircOk c) (h : Stripped acts R c cm) {q0 : Nat}
    (hq : c.nqubits ≤ q0) (hR : q0 ∉ R) : Stripped acts (q0 :: R) c cm := by
  have hn : ∀ q, q ≤ q0 → newIndex (q0 :: R) q = newIndex R q := by
    intro q h1
    rw [newIndex_cons hR, if_neg (by omega)]
  have hm : ∀ q, q < c.nqubits → (q ∉ q0 :: R ↔ q ∉ R) := by
    intro q h1
    have : q ≠ q0 := by omega
    simp [this]
  refine
    { ops := h.ops
      idle := ?_, width := ?_, initial := ?_, output := ?_, flags := ?_ }
  · intro q h1
    rcases List.mem_cons.1 h1 with e | h1
    · intro p hp
      have := (hc.onto q).1 ⟨p, hp⟩
      omega
    · exact h.idle q h1
  · rw [h.width, hn _ hq]
  · intro p v
    rw [h.initial]
    constructor
    · rintro ⟨q, h1, h2, rfl⟩
      have := (hc.onto q).1 ⟨p, h1⟩
      exact ⟨q, h1, (hm q this).2 h2, (hn q (by omega)).symm⟩
    · rintro ⟨q, h1, h2, rfl⟩
      have := (hc.onto q).1 ⟨p, h1⟩
      exact ⟨q, h1, (hm q this).1 h2, hn q (by omega)⟩
  · intro p v
    rw [h.output]
    constructor
    · rintro ⟨q, h1, h2, rfl⟩
      have := hc.outRange p q h1
      exact ⟨q, h1, (hm q this).2 h2, (hn q (by omega)).symm⟩
    · rintro ⟨q, h1, h2, rfl⟩
      have := hc.outRange p q h1
      exact ⟨q, h1, (hm q this).1 h2, hn q (by omega)⟩
  · intro q h1 h2
    rw [hn q (by omega)]
    exact h.flags q h1 ((hm q h1).1 h2)

theorem _root_.QCEC.Spec.Stripped.refl (acts : α → Nat → Bool) (c : Circ α) : Stripped acts [] c c where
  ops := rfl
  idle := by simp
  width := (newIndex_nil _).symm
  initial := by simp [newIndex_nil]
  output := by simp [newIndex_nil]
  flags := by simp [newIndex_nil]

theorem maxValue_ok {c : Circ α} (h : CircOk c) (hn : c.nqubits ≠ 0) : c.initialLayout.maxValue = some (c.nqubits - 1) := by
  rw [Layout.maxValue, List.max?_eq_some_iff]
  constructor
  · obtain ⟨p, hp⟩ := (h.onto (c.nqubits - 1)).2 (by omega)
    exact List.mem_map_of_mem (f := Prod.snd) hp
  · intro v hv
    obtain ⟨⟨a, b⟩, hx, rfl⟩ := List.mem_map.1 hv
    have := (h.onto b).1 ⟨a, hx⟩
    simp only
    omega

/-! ## The loop -/

/-- State of the loop of `stripIdleQubits` after the removal of `R`. -/
structure StripInv (acts : α → Nat → Bool) (L S : Circ α) (R : List Nat) (s : Strip α) : Prop where
  larger : Stripped acts R L s.larger
  smaller : Stripped acts R S s.smaller
  okL : CircOk s.larger
  okS : CircOk s.smaller
  diff : s.smaller.nqubits + s.diff = s.larger.nqubits

theorem onlyInLarger_eq {acts : α → Nat → Bool} {L S : Circ α} {R : List Nat} {s : Strip α} (h : StripInv acts L S R s) {q0 : Nat}
    (hq : q0 < L.nqubits) (hR : q0 ∉ R) : s.onlyInLarger (newIndex R q0) = some (decide (S.nqubits ≤ q0)) := by
  have hlt : newIndex R q0 < s.larger.nqubits := by rw [h.larger.width]; exact newIndex_lt hq hR
  have hw := h.smaller.width
  have hd := h.diff
  have key : s.smaller.nqubits ≤ newIndex R q0 ↔ S.nqubits ≤ q0 := by
    rw [hw]
    constructor
    · intro h1
      by_contra h2
      have := newIndex_lt (R := R) (a := q0) (b := S.nqubits) (by omega) hR
      omega
    · exact newIndex_mono R
  unfold Strip.onlyInLarger
  by_cases h0 : s.diff = 0
  · rw [if_pos h0]
    have : ¬ S.nqubits ≤ q0 := by rw [← key]; omega
    simp [this]
  · rw [if_neg h0]
    by_cases hz : s.smaller.nqubits = 0
    · rw [if_pos hz]
      have : S.nqubits ≤ q0 := by rw [← key]; omega
      simp [this]
    · rw [if_neg hz, maxValue_ok h.okS hz, Option.map_some]
      congr 1
      rw [decide_eq_decide, ← key]
      omega

theorem stripStep_spec {acts : α → Nat → Bool} {L S : Circ α} (hL : CircOk L) (hS : CircOk S) {R : List Nat} {s : Strip α}
    (h : StripInv acts L S R s) {p q0 : Nat} (hp : (p, q0) ∈ L.initialLayout) (hR : q0 ∉ R) :
    ∃ s', stripStep acts s p = some s' ∧
      ((Unused acts L q0 ∧ Unused acts S q0 ∧ StripInv acts L S (q0 :: R) s') ∨
       (¬ (Unused acts L q0 ∧ Unused acts S q0) ∧ StripInv acts L S R s')) := by
  have hql : q0 < L.nqubits := (hL.onto q0).1 ⟨p, hp⟩
  have hpl : (p, newIndex R q0) ∈ s.larger.initialLayout := (h.larger.initial _ _).2 ⟨q0, hp, hR, rfl⟩
  have hU : Unused acts L q0 ↔ s.larger.isIdle acts p = true ∧ s.larger.safeToRemove p (newIndex R q0) = true := by
    rw [safe_iff h.okL, h.larger.isIdle, h.larger.staysPut hL hp hR]
    constructor
    · exact fun hu => hu p hp
    · rintro h1 p' hp'
      rw [Layout.value_inj hL.inj hp' hp]
      exact h1
  unfold stripStep
  by_cases hi : s.larger.isIdle acts p = true
  · rw [if_pos hi, (Layout.get_iff (Layout.nodup_of_lt h.okL.keys)).2 hpl]
    simp only
    rw [onlyInLarger_eq h hql hR]
    by_cases ho : S.nqubits ≤ q0
    · simp only [ho, decide_true]
      have hUS : Unused acts S q0 := by
        intro p' hp'
        have := (hS.onto q0).1 ⟨p', hp'⟩
        omega
      unfold Strip.removeLarger
      by_cases hs : s.larger.safeToRemove p (newIndex R q0) = true
      · rw [if_pos hs]
        obtain ⟨r, hr, ht⟩ := removeQubit_spec h.okL hpl hs
        rw [hr]
        refine ⟨_, rfl, Or.inl ⟨hU.2 ⟨hi, hs⟩, hUS, ?_⟩⟩
        have hw : s.larger.nqubits = newIndex R L.nqubits := h.larger.width
        have h1 : s.smaller.nqubits = newIndex R S.nqubits := h.smaller.width
        have h2 := newIndex_mono R ho
        have h3 := newIndex_lt hql hR
        have h4 := h.diff
        have h5 := ht.width
        exact
          { larger := h.larger.take hL hi ((safe_iff h.okL).1 hs) ht hp hR rfl
            smaller := h.smaller.absent hS ho hR
            okL := ht.ok
            okS := h.okS
            diff := by show s.smaller.nqubits + (s.diff - 1) = (r.1.decAbove _).nqubits; omega }
      · rw [if_neg hs]
        exact ⟨s, rfl, Or.inr ⟨fun hu => hs (hU.1 hu.1).2, h⟩⟩
    · simp only [ho, decide_false]
      unfold Strip.removeBoth
      obtain ⟨ps, hps⟩ := (hS.onto q0).2 (by omega)
      have hpsl : (ps, newIndex R q0) ∈ s.smaller.initialLayout := (h.smaller.initial _ _).2 ⟨q0, hps, hR, rfl⟩
      have hUS : Unused acts S q0 ↔ s.smaller.isIdle acts ps = true ∧ s.smaller.safeToRemove ps (newIndex R q0) = true := by
        rw [safe_iff h.okS, h.smaller.isIdle, h.smaller.staysPut hS hps hR]
        constructor
        · exact fun hu => hu ps hps
        · rintro h1 p' hp'
          rw [Layout.value_inj hS.inj hp' hps]
          exact h1
      rw [(Layout.keyOf_iff h.okS.inj).2 hpsl]
      simp only
      by_cases hall : (s.smaller.isIdle acts ps && s.larger.safeToRemove p (newIndex R q0) &&
          s.smaller.safeToRemove ps (newIndex R q0)) = true
      · rw [if_pos hall]
        simp only [Bool.and_eq_true] at hall
        obtain ⟨⟨h1, h2⟩, h3⟩ := hall
        obtain ⟨rl, hrl, htl⟩ := removeQubit_spec h.okL hpl h2
        obtain ⟨rs, hrs, hts⟩ := removeQubit_spec h.okS hpsl h3
        rw [hrl, hrs]
        refine ⟨_, rfl, Or.inl ⟨hU.2 ⟨hi, h2⟩, hUS.2 ⟨h1, h3⟩, ?_⟩⟩
        have h4 := h.diff
        have h5 := htl.width
        have h6 := hts.width
        exact
          { larger := h.larger.take hL hi ((safe_iff h.okL).1 h2) htl hp hR rfl
            smaller := h.smaller.take hS h1 ((safe_iff h.okS).1 h3) hts hps hR rfl
            okL := htl.ok
            okS := hts.ok
            diff := by show (rs.1.decAbove _).nqubits + s.diff = (rl.1.decAbove _).nqubits; omega }
      · rw [if_neg hall]
        refine ⟨s, rfl, Or.inr ⟨?_, h⟩⟩
        rintro ⟨h1, h2⟩
        apply hall
        simp only [Bool.and_eq_true]
        exact ⟨⟨(hUS.1 h2).1, (hU.1 h1).2⟩, (hUS.1 h2).2⟩
  · rw [if_neg hi]
    exact ⟨s, rfl, Or.inr ⟨fun hu => hi (hU.1 hu.1).1, h⟩⟩

theorem stripFold_spec {acts : α → Nat → Bool} {L S : Circ α} (hL : CircOk L) (hS : CircOk S) (ks : List Nat) :
    ∀ (R : List Nat) (s : Strip α), StripInv acts L S R s → ks.Nodup →
    (∀ k ∈ ks, ∃ q, (k, q) ∈ L.initialLayout ∧ q ∉ R) →
    ∃ R' s', ks.foldlM (stripStep acts) s = some s' ∧ StripInv acts L S R' s' ∧
      ∀ q, q ∈ R' ↔ q ∈ R ∨ ((∃ k ∈ ks, (k, q) ∈ L.initialLayout) ∧ Unused acts L q ∧ Unused acts S q) := by
  induction ks with
  | nil => intro R s h _ _; exact ⟨R, s, rfl, h, by simp⟩
  | cons k ks ih =>
    intro R s h hnd hk
    rw [List.nodup_cons] at hnd
    obtain ⟨q0, hq0, hR⟩ := hk k (by simp)
    obtain ⟨s1, hs1, hcase⟩ := stripStep_spec hL hS h hq0 hR
    have hkq : ∀ q, (k, q) ∈ L.initialLayout ↔ q = q0 := by
      intro q
      exact ⟨fun hq => Layout.key_inj (Layout.nodup_of_lt hL.keys) hq hq0, fun e => e ▸ hq0⟩
    rw [List.foldlM_cons, hs1]
    rcases hcase with ⟨h1, h2, h3⟩ | ⟨h1, h3⟩
    · obtain ⟨R', s', g1, g2, g3⟩ := ih (q0 :: R) s1 h3 hnd.2 (by
        intro k' hk'
        obtain ⟨q, g1, g2⟩ := hk k' (by simp [hk'])
        refine ⟨q, g1, ?_⟩
        simp only [List.mem_cons, not_or]
        refine ⟨?_, g2⟩
        rintro rfl
        exact hnd.1 (Layout.value_inj hL.inj g1 hq0 ▸ hk'))
      refine ⟨R', s', g1, g2, ?_⟩
      intro q
      rw [g3]
      simp only [List.mem_cons]
      constructor
      · rintro ((rfl | hq) | ⟨⟨k', g4, g5⟩, g6⟩)
        · exact Or.inr ⟨⟨k, Or.inl rfl, hq0⟩, h1, h2⟩
        · exact Or.inl hq
        · exact Or.inr ⟨⟨k', Or.inr g4, g5⟩, g6⟩
      · rintro (hq | ⟨⟨k', rfl | g4, g5⟩, g6⟩)
        · exact Or.inl (Or.inr hq)
        · exact Or.inl (Or.inl ((hkq q).1 g5))
        · exact Or.inr ⟨⟨k', g4, g5⟩, g6⟩
    · obtain ⟨R', s', g1, g2, g3⟩ := ih R s1 h3 hnd.2 (fun k' hk' => hk k' (by simp [hk']))
      refine ⟨R', s', g1, g2, ?_⟩
      intro q
      rw [g3]
      simp only [List.mem_cons]
      constructor
      · rintro (hq | ⟨⟨k', g4, g5⟩, g6⟩)
        · exact Or.inl hq
        · exact Or.inr ⟨⟨k', Or.inr g4, g5⟩, g6⟩
      · rintro (hq | ⟨⟨k', rfl | g4, g5⟩, g6⟩)
        · exact Or.inl hq
        · exact absurd ((hkq q).1 g5 ▸ g6) h1
        · exact Or.inr ⟨⟨k', g4, g5⟩, g6⟩

theorem stripLoop_spec (acts : α → Nat → Bool) {L S : Circ α} (hL : CircOk L) (hS : CircOk S) (hn : S.nqubits ≤ L.nqubits) :
    ∃ R s', stripLoop acts L S = some s' ∧ StripInv acts L S R s' ∧
      ∀ q, q ∈ R ↔ q < L.nqubits ∧ Unused acts L q ∧ Unused acts S q := by
  have h0 : StripInv acts L S [] { larger := L, smaller := S, diff := L.nqubits - S.nqubits } :=
    { larger := Stripped.refl acts L, smaller := Stripped.refl acts S, okL := hL, okS := hS
      diff := by show S.nqubits + (L.nqubits - S.nqubits) = L.nqubits; omega }
  obtain ⟨R, s', h1, h2, h3⟩ := stripFold_spec hL hS (L.initialLayout.reverse.map (·.1)) [] _ h0
    (by rw [List.map_reverse, List.nodup_reverse]; exact Layout.nodup_of_lt hL.keys)
    (by
      intro k hk
      obtain ⟨⟨a, b⟩, hx, rfl⟩ := List.mem_map.1 hk
      exact ⟨b, by simpa using hx, by simp⟩)
  refine ⟨R, s', h1, h2, ?_⟩
  intro q
  rw [h3, ← hL.onto q]
  constructor
  · rintro (h | ⟨⟨k, _, h4⟩, h5⟩)
    · simp at h
    · exact ⟨⟨k, h4⟩, h5⟩
  · rintro ⟨⟨k, h4⟩, h5⟩
    refine Or.inr ⟨⟨k, ?_, h4⟩, h5⟩
    rw [List.map_reverse, List.mem_reverse]
    exact List.mem_map_of_mem (f := fun x : Nat × Nat => x.1) h4

end QCEC.Prep
