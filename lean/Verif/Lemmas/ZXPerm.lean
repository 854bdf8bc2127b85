import Verif.Model.ZX
import Verif.Lemmas.Prepare
import Mathlib.Data.List.Perm.Subperm
/-!
# Lemmas about the permutations of the ZX checker
-/
namespace QCEC.Prep.Layout
open QCEC QCEC.Prep

/-- Keys in ascending order. -/
abbrev Sorted (l : Layout) : Prop := (l.map Prod.fst).Pairwise (· < ·)

theorem mem_set {l : Layout} (hs : l.Sorted) {k v a b : Nat} :
    (a, b) ∈ l.set k v ↔ (a = k ∧ b = v) ∨ (a ≠ k ∧ (a, b) ∈ l) := by
  induction l with
  | nil => simp [Layout.set]
  | cons e r ih =>
    obtain ⟨c, d⟩ := e
    simp only [Layout.Sorted, List.map_cons, List.pairwise_cons, List.mem_map, Prod.exists, exists_and_right, exists_eq_right,
      forall_exists_index] at hs
    have hr : ∀ a b, (a, b) ∈ r → c < a := fun a b h => hs.1 a b h
    unfold Layout.set
    simp only
    split
    · rename_i hlt
      simp only [List.mem_cons, Prod.mk.injEq]
      constructor
      · rintro (h | h | h)
        · exact Or.inl h
        · exact Or.inr ⟨by omega, Or.inl h⟩
        · have := hr _ _ h
          exact Or.inr ⟨by omega, Or.inr h⟩
      · rintro (h | ⟨_, h⟩)
        · exact Or.inl h
        · exact Or.inr h
    · split
      · rename_i _ heq
        subst heq
        simp only [List.mem_cons, Prod.mk.injEq]
        constructor
        · rintro (h | h)
          · exact Or.inl h
          · have := hr _ _ h
            exact Or.inr ⟨by omega, Or.inr h⟩
        · rintro (h | ⟨h1, h | h⟩)
          · exact Or.inl h
          · exact absurd h.1 h1
          · exact Or.inr h
      · rename_i hlt hne
        rw [List.mem_cons, ih hs.2]
        simp only [List.mem_cons, Prod.mk.injEq]
        constructor
        · rintro (⟨h1, h2⟩ | h | ⟨h1, h2⟩)
          · exact Or.inr ⟨by omega, Or.inl ⟨h1, h2⟩⟩
          · exact Or.inl h
          · exact Or.inr ⟨h1, Or.inr h2⟩
        · rintro (h | ⟨h1, h | h⟩)
          · exact Or.inr (Or.inl h)
          · exact Or.inl h
          · exact Or.inr (Or.inr ⟨h1, h⟩)

theorem sorted_set {l : Layout} (hs : l.Sorted) (k v : Nat) : (l.set k v).Sorted := by
  induction l with
  | nil => simp [Layout.set, Layout.Sorted]
  | cons e r ih =>
    obtain ⟨c, d⟩ := e
    have hs' := hs
    simp only [Layout.Sorted, List.map_cons, List.pairwise_cons, List.mem_map, Prod.exists, exists_and_right, exists_eq_right,
      forall_exists_index] at hs
    unfold Layout.set
    simp only
    split
    · rename_i hlt
      simp only [Layout.Sorted, List.map_cons, List.pairwise_cons, List.mem_cons, List.mem_map, Prod.exists, exists_and_right,
        exists_eq_right]
      refine ⟨?_, ?_, hs.2⟩
      · rintro a (h | ⟨b, h⟩)
        · omega
        · have := hs.1 a b h; omega
      · rintro a ⟨b, h⟩; exact hs.1 a b h
    · split
      · rename_i _ heq
        subst heq
        simp only [Layout.Sorted, List.map_cons, List.pairwise_cons, List.mem_map, Prod.exists, exists_and_right,
          exists_eq_right]
        exact ⟨by rintro a ⟨b, h⟩; exact hs.1 a b h, hs.2⟩
      · rename_i hlt hne
        simp only [Layout.Sorted, List.map_cons, List.pairwise_cons, List.mem_map, Prod.exists, exists_and_right,
          exists_eq_right]
        refine ⟨?_, ih hs.2⟩
        rintro a ⟨b, h⟩
        rcases (mem_set hs.2).1 h with h | h
        · omega
        · exact hs.1 a b h.2

/-- Sorted layouts with the same entries are equal. -/
theorem sorted_ext {l l' : Layout} (h : l.Sorted) (h' : l'.Sorted) (he : ∀ a b, (a, b) ∈ l ↔ (a, b) ∈ l') : l = l' := by
  have hp : l.Perm l' := by
    refine (List.perm_ext_iff_of_nodup ?_ ?_).2 fun e => he e.1 e.2
    · exact (List.Pairwise.of_map (S := fun a b => a ≠ b) Prod.fst (fun a b h e => by simp [e] at h) (nodup_of_lt h))
    · exact (List.Pairwise.of_map (S := fun a b => a ≠ b) Prod.fst (fun a b h e => by simp [e] at h) (nodup_of_lt h'))
  refine List.Perm.eq_of_pairwise (le := fun a b => a.1 < b.1) ?_ (List.pairwise_map.1 h) (List.pairwise_map.1 h') hp
  intro a b _ _ h1 h2
  omega

end QCEC.Prep.Layout

namespace QCEC.ZX
open QCEC QCEC.Prep

theorem invert_aux {l : Layout} (hv : (l.map Prod.snd).Nodup) {acc : Layout} (hs : acc.Sorted)
    (hd : ∀ a b c, (a, b) ∈ acc → (c, a) ∉ l) :
    (l.foldl (fun a e => a.set e.2 e.1) acc).Sorted ∧
    ∀ a b, (a, b) ∈ l.foldl (fun a e => a.set e.2 e.1) acc ↔ (a, b) ∈ acc ∨ (b, a) ∈ l := by
  induction l generalizing acc with
  | nil => exact ⟨hs, by simp⟩
  | cons e r ih =>
    obtain ⟨k, v⟩ := e
    simp only [List.map_cons, List.nodup_cons, List.mem_map, Prod.exists, exists_eq_right, not_exists] at hv
    rw [List.foldl_cons]
    obtain ⟨h1, h2⟩ := ih hv.2 (acc := acc.set v k) (Layout.sorted_set hs _ _) (by
      intro a b c hab hc
      rcases (Layout.mem_set hs).1 hab with ⟨rfl, _⟩ | ⟨_, h⟩
      · exact hv.1 c hc
      · exact hd a b c h (List.mem_cons_of_mem _ hc))
    refine ⟨h1, ?_⟩
    intro a b
    rw [h2, Layout.mem_set hs, List.mem_cons, Prod.mk.injEq]
    constructor
    · rintro ((⟨h3, h4⟩ | ⟨_, h⟩) | h)
      · exact Or.inr (Or.inl ⟨h4, h3⟩)
      · exact Or.inl h
      · exact Or.inr (Or.inr h)
    · rintro (h | ⟨h3, h4⟩ | h)
      · refine Or.inl (Or.inr ⟨?_, h⟩)
        rintro rfl
        exact hd a b k h (by simp)
      · exact Or.inl (Or.inl ⟨h4, h3⟩)
      · exact Or.inr h

theorem mem_invert {l : Layout} (hv : (l.map Prod.snd).Nodup) {a b : Nat} : (a, b) ∈ invert l ↔ (b, a) ∈ l := by
  have := (invert_aux hv (acc := []) (by simp [Layout.Sorted]) (by simp)).2 a b
  rw [invert, this]
  simp

theorem sorted_invert {l : Layout} (hv : (l.map Prod.snd).Nodup) : (invert l).Sorted :=
  (invert_aux hv (acc := []) (by simp [Layout.Sorted]) (by simp)).1

theorem nodup_of_inj {l : Layout} (hs : l.Sorted) (h : ∀ a b v, (a, v) ∈ l → (b, v) ∈ l → a = b) : (l.map Prod.snd).Nodup := by
  refine List.Nodup.map_on ?_ (List.Pairwise.of_map (S := fun a b => a ≠ b) Prod.fst (fun a b h e => by simp [e] at h)
    (Layout.nodup_of_lt hs))
  rintro ⟨a, v⟩ ha ⟨b, w⟩ hb e
  simp only at e
  subst e
  rw [h a b v ha hb]

theorem concat_aux {p2 : Layout} (h2 : p2.Sorted) {l : Layout} (hk : (l.map Prod.fst).Nodup) {acc : Layout} (hs : acc.Sorted)
    (hd : ∀ a b, (a, b) ∈ acc → a ∉ l.map Prod.fst) :
    (l.foldl (concatStep p2) acc).Sorted ∧
    ∀ a c, (a, c) ∈ l.foldl (concatStep p2) acc ↔ (a, c) ∈ acc ∨ ∃ b, (a, b) ∈ l ∧ (b, c) ∈ p2 := by
  induction l generalizing acc with
  | nil => exact ⟨hs, by simp⟩
  | cons e r ih =>
    obtain ⟨k, v⟩ := e
    simp only [List.map_cons, List.nodup_cons] at hk
    have hn2 := Layout.nodup_of_lt h2
    rw [List.foldl_cons]
    unfold concatStep
    cases hg : p2.get v with
    | none =>
      have hno := (Layout.get_none hn2).1 hg
      obtain ⟨i1, i2⟩ := ih hk.2 hs (fun a b h => by have := hd a b h; simp at this ⊢; exact this.2)
      refine ⟨i1, ?_⟩
      intro a c
      show (a, c) ∈ r.foldl (concatStep p2) acc ↔ _
      rw [i2]
      constructor
      · rintro (h | ⟨b, h3, h4⟩)
        · exact Or.inl h
        · exact Or.inr ⟨b, by simp [h3], h4⟩
      · rintro (h | ⟨b, h3, h4⟩)
        · exact Or.inl h
        · rcases List.mem_cons.1 h3 with e | h3
          · cases e; exact absurd h4 (hno c)
          · exact Or.inr ⟨b, h3, h4⟩
    | some w =>
      have hw := (Layout.get_iff hn2).1 hg
      have hak : ∀ b, (k, b) ∉ acc := fun b h => by have := hd k b h; simp at this
      obtain ⟨i1, i2⟩ := ih hk.2 (acc := acc.set k w) (Layout.sorted_set hs _ _) (by
        intro a b h
        rcases (Layout.mem_set hs).1 h with ⟨rfl, _⟩ | ⟨_, h⟩
        · exact hk.1
        · have := hd a b h; simp at this ⊢; exact this.2)
      refine ⟨i1, ?_⟩
      intro a c
      show (a, c) ∈ r.foldl (concatStep p2) (acc.set k w) ↔ _
      rw [i2, Layout.mem_set hs]
      constructor
      · rintro ((⟨rfl, rfl⟩ | ⟨_, h⟩) | ⟨b, h3, h4⟩)
        · exact Or.inr ⟨v, by simp, hw⟩
        · exact Or.inl h
        · exact Or.inr ⟨b, by simp [h3], h4⟩
      · rintro (h | ⟨b, h3, h4⟩)
        · exact Or.inl (Or.inr ⟨fun e => hak c (e ▸ h), h⟩)
        · rcases List.mem_cons.1 h3 with e | h3
          · cases e
            exact Or.inl (Or.inl ⟨rfl, Layout.key_inj hn2 h4 hw⟩)
          · exact Or.inr ⟨b, h3, h4⟩

theorem mem_concat {p1 p2 : Layout} (h1 : (p1.map Prod.fst).Nodup) (h2 : p2.Sorted) {a c : Nat} :
    (a, c) ∈ concat p1 p2 ↔ ∃ b, (a, b) ∈ p1 ∧ (b, c) ∈ p2 := by
  have := (concat_aux h2 h1 (acc := []) (by simp [Layout.Sorted]) (by simp)).2 a c
  rw [concat, this]
  simp

theorem sorted_concat {p1 p2 : Layout} (h1 : (p1.map Prod.fst).Nodup) (h2 : p2.Sorted) : (concat p1 p2).Sorted :=
  (concat_aux h2 h1 (acc := []) (by simp [Layout.Sorted]) (by simp)).1

/-- Invariant of `complete`. -/
structure CompOk (p : Layout) (n : Nat) (s : Completion) : Prop where
  sorted : s.comp.Sorted
  inj : (s.comp.map Prod.snd).Nodup
  range : ∀ a b, (a, b) ∈ s.comp → b < n
  len : s.mappedTo.length = n
  to_ : ∀ i, i < n → (s.mappedTo.getD i false = true ↔ ∃ a, (a, i) ∈ s.comp)
  from_ : ∀ a, a ∈ s.mappedFrom ↔ ∃ b, (a, b) ∈ s.comp
  keep : ∀ a b, (a, b) ∈ p → (a, b) ∈ s.comp
  new : ∀ a b, (a, b) ∈ s.comp → (a, b) ∈ p ∨ (a < n ∧ ∀ c, (a, c) ∉ p)

theorem start_ok {p : Layout} {n : Nat} (hs : p.Sorted) (hv : (p.map Prod.snd).Nodup) (hr : ∀ a b, (a, b) ∈ p → b < n) :
    ∃ s, Completion.start p n = some s ∧ s.comp = p ∧ CompOk p n s := by
  unfold Completion.start
  rw [if_pos (by rw [List.all_eq_true]; rintro ⟨a, b⟩ h; simpa using hr a b h)]
  refine ⟨_, rfl, rfl, hs, hv, hr, ?_, ?_, ?_, fun _ _ h => h, fun _ _ h => Or.inl h⟩
  · have : ∀ (l : Layout) (m : List Bool), (l.foldl (fun m e => m.set e.2 true) m).length = m.length := by
      intro l
      induction l with
      | nil => intro m; rfl
      | cons e r ih => intro m; rw [List.foldl_cons, ih]; simp
    rw [this]
    simp
  · intro i hi
    have key : ∀ (l : Layout) (m : List Bool), i < m.length →
        ((l.foldl (fun m e => m.set e.2 true) m).getD i false = true ↔ m.getD i false = true ∨ ∃ a, (a, i) ∈ l) := by
      intro l
      induction l with
      | nil => intro m _; simp
      | cons e r ih =>
        intro m hm
        rw [List.foldl_cons, ih _ (by simpa using hm)]
        have : (m.set e.2 true).getD i false = true ↔ m.getD i false = true ∨ e.2 = i := by
          by_cases h : e.2 = i
          · subst h; simp [List.getD_eq_getElem?_getD, hm]
          · simp [List.getD_eq_getElem?_getD, h]
        rw [this]
        constructor
        · rintro ((h | h) | ⟨a, h⟩)
          · exact Or.inl h
          · exact Or.inr ⟨e.1, by subst h; simp⟩
          · exact Or.inr ⟨a, by simp [h]⟩
        · rintro (h | ⟨a, h⟩)
          · exact Or.inl (Or.inl h)
          · rcases List.mem_cons.1 h with h | h
            · exact Or.inl (Or.inr (by rw [← h]))
            · exact Or.inr ⟨a, h⟩
    rw [key p _ (by simpa using hi)]
    simp [List.getD_eq_getElem?_getD, hi]
  · intro a
    simp

/-- A free key exists whenever some value is free. -/
theorem free_key {p : Layout} {n : Nat} (hs : p.Sorted) (hv : (p.map Prod.snd).Nodup) (hr : ∀ a b, (a, b) ∈ p → b < n) {i : Nat}
    (hi : i < n) (hfree : ∀ a, (a, i) ∉ p) : ∃ j, j < n ∧ ∀ b, (j, b) ∉ p := by
  by_contra hno
  push Not at hno
  have hsub : List.range n ⊆ p.map Prod.fst := by
    intro j hj
    obtain ⟨b, hb⟩ := hno j (List.mem_range.1 hj)
    exact List.mem_map.2 ⟨_, hb, rfl⟩
  have h1 := (List.subperm_of_subset List.nodup_range hsub).length_le
  have hsub2 : (i :: p.map Prod.snd) ⊆ List.range n := by
    intro b hb
    rcases List.mem_cons.1 hb with rfl | hb
    · exact List.mem_range.2 hi
    · obtain ⟨e, he, rfl⟩ := List.mem_map.1 hb
      exact List.mem_range.2 (hr e.1 e.2 he)
  have hnd : (i :: p.map Prod.snd).Nodup := by
    refine List.nodup_cons.2 ⟨?_, hv⟩
    intro h
    obtain ⟨e, he, rfl⟩ := List.mem_map.1 h
    exact hfree e.1 he
  have h2 := (List.subperm_of_subset hnd hsub2).length_le
  simp at h1 h2
  omega

theorem step_ok {p : Layout} {n : Nat} {s : Completion} (h : CompOk p n s) {i : Nat} (hi : i < n) :
    CompOk p n (s.step n i) ∧ (∃ a, (a, i) ∈ (s.step n i).comp) ∧ ∀ a b, (a, b) ∈ s.comp → (a, b) ∈ (s.step n i).comp := by
  unfold Completion.step
  by_cases hm : s.mappedTo.getD i false = true
  · rw [if_pos hm]
    exact ⟨h, (h.to_ i hi).1 hm, fun _ _ h => h⟩
  · rw [if_neg hm]
    have hfree : ∀ a, (a, i) ∉ s.comp := fun a ha => hm ((h.to_ i hi).2 ⟨a, ha⟩)
    cases hf : (List.range n).find? (fun j => !s.mappedFrom.contains j) with
    | none =>
      exfalso
      obtain ⟨j, hj, hno⟩ := free_key h.sorted h.inj h.range hi hfree
      have := List.find?_eq_none.1 hf j (List.mem_range.2 hj)
      simp only [Bool.not_eq_true', Bool.not_eq_false, List.contains_iff_mem] at this
      obtain ⟨b, hb⟩ := (h.from_ j).1 this
      exact hno b hb
    | some j =>
      have hj := List.mem_of_find?_eq_some hf
      have hjf := List.find?_some hf
      simp only [Bool.not_eq_true', List.contains_eq_mem, decide_eq_false_iff_not] at hjf
      have hjn := List.mem_range.1 hj
      have hno : ∀ b, (j, b) ∉ s.comp := fun b hb => hjf ((h.from_ j).2 ⟨b, hb⟩)
      have hmem : ∀ a b, (a, b) ∈ s.comp.set j i ↔ (a = j ∧ b = i) ∨ (a, b) ∈ s.comp := by
        intro a b
        rw [Layout.mem_set h.sorted]
        constructor
        · rintro (h | ⟨_, h⟩)
          · exact Or.inl h
          · exact Or.inr h
        · rintro (h | h)
          · exact Or.inl h
          · exact Or.inr ⟨fun e => hno b (e ▸ h), h⟩
      refine ⟨⟨Layout.sorted_set h.sorted _ _, ?_, ?_, ?_, ?_, ?_, ?_, ?_⟩, ⟨j, (hmem _ _).2 (Or.inl ⟨rfl, rfl⟩)⟩,
        fun a b hab => (hmem _ _).2 (Or.inr hab)⟩
      · refine nodup_of_inj (Layout.sorted_set h.sorted _ _) ?_
        intro a b v ha hb
        rcases (hmem _ _).1 ha with ⟨e1, e2⟩ | ha' <;> rcases (hmem _ _).1 hb with ⟨e3, e4⟩ | hb'
        · rw [e1, e3]
        · rw [e2] at hb'; exact absurd hb' (hfree b)
        · rw [e4] at ha'; exact absurd ha' (hfree a)
        · exact Layout.value_inj h.inj ha' hb'
      · intro a b hab
        rcases (hmem _ _).1 hab with ⟨_, rfl⟩ | hab
        · exact hi
        · exact h.range a b hab
      · simpa using h.len
      · intro k hk
        simp only
        have hlen := h.len
        by_cases e : i = k
        · subst e
          simp only [List.getD_eq_getElem?_getD, List.getElem?_set_self (show i < s.mappedTo.length by omega), Option.getD_some,
            true_iff]
          exact ⟨j, (hmem _ _).2 (Or.inl ⟨rfl, rfl⟩)⟩
        · rw [List.getD_eq_getElem?_getD, List.getElem?_set_ne e, ← List.getD_eq_getElem?_getD, h.to_ k hk]
          constructor
          · rintro ⟨a, ha⟩; exact ⟨a, (hmem _ _).2 (Or.inr ha)⟩
          · rintro ⟨a, ha⟩
            rcases (hmem _ _).1 ha with ⟨_, rfl⟩ | ha
            · exact absurd rfl e
            · exact ⟨a, ha⟩
      · intro a
        simp only [List.mem_cons, h.from_, hmem]
        constructor
        · rintro (rfl | ⟨b, hb⟩)
          · exact ⟨i, Or.inl ⟨rfl, rfl⟩⟩
          · exact ⟨b, Or.inr hb⟩
        · rintro ⟨b, ⟨rfl, _⟩ | hb⟩
          · exact Or.inl rfl
          · exact Or.inr ⟨b, hb⟩
      · intro a b hab
        exact (hmem _ _).2 (Or.inr (h.keep a b hab))
      · intro a b hab
        rcases (hmem _ _).1 hab with ⟨rfl, rfl⟩ | hab
        · exact Or.inr ⟨hjn, fun c hc => hno c (h.keep _ _ hc)⟩
        · exact h.new a b hab

theorem steps_ok {p : Layout} {n : Nat} (l : List Nat) (hl : ∀ i ∈ l, i < n) {s : Completion} (h : CompOk p n s) :
    CompOk p n (l.foldl (Completion.step n) s) ∧ (∀ i ∈ l, ∃ a, (a, i) ∈ (l.foldl (Completion.step n) s).comp) ∧
    ∀ a b, (a, b) ∈ s.comp → (a, b) ∈ (l.foldl (Completion.step n) s).comp := by
  induction l generalizing s with
  | nil => exact ⟨h, by simp, fun _ _ h => h⟩
  | cons i l ih =>
    obtain ⟨h1, ⟨a, h2⟩, h3⟩ := step_ok h (hl i (by simp))
    obtain ⟨i1, i2, i3⟩ := ih (fun j hj => hl j (by simp [hj])) h1
    rw [List.foldl_cons]
    refine ⟨i1, ?_, fun a b hab => i3 a b (h3 a b hab)⟩
    intro j hj
    rcases List.mem_cons.1 hj with rfl | hj
    · exact ⟨a, i3 _ _ h2⟩
    · exact i2 j hj

/-- A layout with `n` entries and distinct values below `n` has all of them. -/
theorem onto_of_length {p : Layout} {n : Nat} (hv : (p.map Prod.snd).Nodup) (hr : ∀ a b, (a, b) ∈ p → b < n) (hl : p.length = n) :
    ∀ q, q < n → ∃ a, (a, q) ∈ p := by
  have hsub : p.map Prod.snd ⊆ List.range n := by
    intro b hb
    obtain ⟨e, he, rfl⟩ := List.mem_map.1 hb
    exact List.mem_range.2 (hr e.1 e.2 he)
  have hperm := (List.subperm_of_subset hv hsub).perm_of_length_le (by simp [hl])
  intro q hq
  obtain ⟨e, he, rfl⟩ := List.mem_map.1 (hperm.mem_iff.2 (List.mem_range.2 hq))
  exact ⟨e.1, he⟩

end QCEC.ZX
