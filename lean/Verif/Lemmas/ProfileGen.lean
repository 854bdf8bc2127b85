import Verif.Model.ProfileGen
import Verif.Spec.ProfileGen
import Verif.Props.Recurrence
import Verif.Props.Profile
/-!
# Lemmas on generated profiles
-/
namespace QCEC.Lemmas.ProfileGen
open QCEC.ProfileGen QCEC.Recurrence QCEC.Py QCEC.Props QCEC.Spec.ProfileGen

/-- Keys of a dictionary, in order. -/
def keys (d : Data) : List (String × Nat) := d.map (·.1)

theorem lookup_isSome {d : Data} {k : String × Nat} : (lookup d k).isSome ↔ k ∈ keys d := by
  simp [lookup, keys]

theorem lookup_none {d : Data} {k : String × Nat} : lookup d k = none ↔ k ∉ keys d := by
  rw [← lookup_isSome]; cases lookup d k <;> simp

theorem keys_assign (d : Data) (k : String × Nat) (v : Int) : keys (assign d k v) = if k ∈ keys d then keys d else keys d ++ [k] := by
  have h : d.any (fun e => e.1 == k) = true ↔ k ∈ keys d := by
    simp [keys]
  unfold assign
  by_cases hk : k ∈ keys d
  · rw [if_pos (h.2 hk), if_pos hk]
    unfold keys
    rw [List.map_map]
    refine List.map_congr_left fun e _ => ?_
    simp only [Function.comp]
    split
    · rename_i he; exact (by simpa using he : e.1 = k).symm
    · rfl
  · rw [if_neg (fun hh => hk (h.1 hh)), if_neg hk]
    simp [keys]

theorem keys_update (l d : Data) : keys (update d l) = (keys l).foldl (fun ks k => if k ∈ ks then ks else ks ++ [k]) (keys d) := by
  induction l generalizing d with
  | nil => rfl
  | cons e l ih =>
    have : update d (e :: l) = update (assign d e.1 e.2) l := rfl
    rw [this, ih, keys_assign]
    rfl

theorem nodup_update (l d : Data) (h : (keys d).Nodup) : (keys (update d l)).Nodup := by
  rw [keys_update]
  generalize keys d = ks at h
  generalize keys l = kl
  induction kl generalizing ks with
  | nil => exact h
  | cons k kl ih =>
    refine ih _ ?_
    beta_reduce
    split
    · exact h
    · rename_i hk
      rw [List.nodup_append]
      exact ⟨h, by simp, by rintro a ha b hb rfl; rw [List.mem_singleton] at hb; exact hk (hb ▸ ha)⟩

theorem lookup_cons (e : (String × Nat) × Int) (l : Data) (k : String × Nat) : lookup (e :: l) k = if k = e.1 then some e.2 else lookup l k := by
  unfold lookup
  by_cases h : k = e.1
  · simp [h]
  · have : (e.1 == k) = false := by simpa using fun hh => h hh.symm
    simp [this, h]

/-- Look-up after an update: the new entries win. -/
theorem lookup_update (l d : Data) (h : (keys l).Nodup) (k : String × Nat) : lookup (update d l) k = (lookup l k).or (lookup d k) := by
  induction l generalizing d with
  | nil => rfl
  | cons e l ih =>
    have : update d (e :: l) = update (assign d e.1 e.2) l := rfl
    have hn : e.1 ∉ keys l ∧ (keys l).Nodup := by simpa [keys] using h
    rw [this, ih _ hn.2, lookup_assign, lookup_cons]
    by_cases hk : k = e.1
    · subst hk
      rw [if_pos rfl, if_pos rfl, lookup_none.2 hn.1]
      rfl
    · rw [if_neg hk, if_neg hk]

theorem update_nil (l : Data) (h : (keys l).Nodup) : update [] l = l := by
  have : ∀ (l d : Data), (keys (d ++ l)).Nodup → update d l = d ++ l := by
    intro l
    induction l with
    | nil => intro d _; simp [update]
    | cons e l ih =>
      intro d hd
      have h1 : update d (e :: l) = update (assign d e.1 e.2) l := rfl
      have h2 : assign d e.1 e.2 = d ++ [e] := by
        unfold assign
        rw [if_neg]
        intro hh
        obtain ⟨e', he', hk⟩ := List.any_eq_true.1 hh
        simp only [keys, List.map_append, List.map_cons, List.nodup_append, List.mem_map] at hd
        exact hd.2.2 e'.1 ⟨e', he', rfl⟩ e.1 (by simp) (by simpa using hk)
      rw [h1, h2, ih _ (by simpa using hd)]
      simp
  simpa using this l [] (by simpa using h)

/-- The entries of a collection, in order. -/
def flat (t : GateType) (coll : List GateSet) : List ((String × Nat) × GateCall) :=
  coll.flatMap fun s => s.gates.flatMap fun g => s.controls.map fun c => ((g, c), s.call t c g)

/-- Measured. -/
def valued (cost : GateCall → Nat) (l : List ((String × Nat) × GateCall)) : Data := l.map fun e => (e.1, (cost e.2 : Int))

theorem keys_valued (cost : GateCall → Nat) (l : List ((String × Nat) × GateCall)) : keys (valued cost l) = l.map (·.1) := by
  simp [keys, valued]

theorem lookup_valued (cost : GateCall → Nat) (l : List ((String × Nat) × GateCall)) (k : String × Nat) :
    lookup (valued cost l) k = (l.find? (fun e => e.1 == k)).map fun e => (cost e.2 : Int) := by
  unfold lookup valued
  rw [List.find?_map, Option.map_map]
  rfl

theorem create_eq_update (cost : GateCall → Nat) (t : GateType) (coll : List GateSet) :
    createGateProfileData cost t coll = update [] (valued cost (flat t coll)) := by
  unfold createGateProfileData update valued flat
  rw [List.foldl_map, List.foldl_flatMap]
  congr 1
  funext d s
  rw [List.foldl_flatMap]
  congr 1
  funext d g
  rw [List.foldl_map]

theorem create_eq (cost : GateCall → Nat) (t : GateType) (coll : List GateSet) (h : ((flat t coll).map (·.1)).Nodup) :
    createGateProfileData cost t coll = valued cost (flat t coll) := by
  rw [create_eq_update, update_nil]
  rw [keys_valued]; exact h

/-! ## The loop of the continuation -/

/-- Consecutive numbers of controls from `s` on. -/
def numbered (g : String) : Nat → List Int → Data
  | _, [] => []
  | s, v :: vs => ((g, s), v) :: numbered g (s + 1) vs

theorem lookup_numbered (g : String) (vs : List Int) (s : Nat) (k : String × Nat) :
    lookup (numbered g s vs) k = if k.1 = g ∧ s ≤ k.2 then vs[k.2 - s]? else none := by
  induction vs generalizing s with
  | nil => simp [numbered, lookup]
  | cons v vs ih =>
    rw [numbered, lookup_cons, ih]
    obtain ⟨g', c⟩ := k
    simp only [Prod.mk.injEq]
    by_cases hg : g' = g
    · subst hg
      by_cases hc : c = s
      · subst hc; simp
      · by_cases hl : s + 1 ≤ c
        · have : c - s = (c - (s + 1)) + 1 := by omega
          simp [hc, hl, show s ≤ c by omega, this]
        · simp [hc, hl, show ¬ s ≤ c by omega]
    · simp [hg]

theorem keys_numbered (g : String) (vs : List Int) (s : Nat) : keys (numbered g s vs) = (List.range' s vs.length).map fun c => (g, c) := by
  induction vs generalizing s with
  | nil => rfl
  | cons v vs ih =>
    simp only [numbered, keys, List.map_cons, List.length_cons, List.range'_succ]
    have := ih (s + 1)
    simp only [keys] at this
    rw [this]

theorem nodup_numbered (g : String) (vs : List Int) (s : Nat) : (keys (numbered g s vs)).Nodup := by
  rw [keys_numbered]
  exact (List.nodup_range' (step := 1)).map (fun a b h => by simpa using h)

/-- What the loop of the continuation does, for any coefficients that are not more than the terms at hand. -/
theorem extend_spec (gate : String) (c : Coeffs) (mc : Nat) (cutoff : ℚ) :
    ∀ (n i : Nat) (sq : List Int) (d : Data), c.1 ≤ sq.length → ∃ vs : List Int,
      extend gate c mc cutoff n i sq d = some (sq ++ vs, update d (numbered gate (mc + i + 1) vs)) ∧ vs.length ≤ n ∧
      (∀ j, j < vs.length → ∃ t : Int, vs[j]? = some t ∧ nextTerm c (sq ++ vs.take j) = some t ∧ (t : ℚ) < cutoff) ∧
      (vs.length < n → ∃ t, nextTerm c (sq ++ vs) = some t ∧ cutoff ≤ (t : ℚ)) := by
  intro n
  induction n with
  | zero =>
    intro i sq d _
    exact ⟨[], by simp [extend, numbered, update], by simp, by simp, by simp⟩
  | succ n ih =>
    intro i sq d hl
    obtain ⟨t, ht⟩ : ∃ t, nextTerm c sq = some t := by unfold nextTerm; rw [if_pos hl]; exact ⟨_, rfl⟩
    simp only [extend, ht]
    by_cases hc : cutoff ≤ (t : ℚ)
    · rw [if_pos hc]
      exact ⟨[], by simp [numbered, update], by simp, by simp, fun _ => ⟨t, by simpa using ht, hc⟩⟩
    · rw [if_neg hc]
      obtain ⟨vs, h1, h2, h3, h4⟩ := ih (i + 1) (sq ++ [t]) (assign d (gate, mc + i + 1) t) (by simp only [List.length_append]; omega)
      refine ⟨t :: vs, ?_, by simpa using h2, ?_, ?_⟩
      · rw [h1]
        simp only [List.append_assoc, List.singleton_append, Option.some.injEq, Prod.mk.injEq, true_and]
        rw [numbered, show mc + (i + 1) + 1 = mc + i + 1 + 1 by omega]
        rfl
      · intro j hj
        cases j with
        | zero => exact ⟨t, by simp, by simpa using ht, not_le.1 hc⟩
        | succ j =>
          obtain ⟨t', a, b, e⟩ := h3 j (by simpa using hj)
          exact ⟨t', by simpa using a, by simpa using b, e⟩
      · intro hlt
        obtain ⟨t', a, b⟩ := h4 (by simpa using hlt)
        exact ⟨t', by simpa using a, b⟩

theorem coefficients_order (sq : List Int) (m : Nat) (hm : 2 ≤ m) : (coefficients sq m).1 ≤ m := by
  have : ∀ (l : List Nat), (∀ o ∈ l, o ≤ m) → ((firstFit sq l).getD linear).1 ≤ m := by
    intro l
    induction l with
    | nil => intro _; exact hm
    | cons o os ih =>
      intro h
      rw [firstFit]
      split
      · exact h o (by simp)
      · exact ih fun o' ho' => h o' (by simp [ho'])
  refine this _ fun o ho => ?_
  rw [List.mem_range'_1] at ho
  omega

/-- The continuation of a dictionary. -/
theorem findContinuation_spec (d : Data) (gate : String) (hlen : 3 ≤ (costs d gate 5).length) : ∃ vs : List Int,
    findContinuation d gate (maxControl := maxControls) = some (update d (numbered gate 12 vs)) ∧ vs.length ≤ 116 ∧
    (∀ j, j < vs.length → ∃ t : Int, vs[j]? = some t ∧ nextTerm (coefficients (costs d gate 5) 3) (costs d gate 5 ++ vs.take j) = some t ∧ t < 1000000) ∧
    (vs.length < 116 → ∃ t : Int, nextTerm (coefficients (costs d gate 5) 3) (costs d gate 5 ++ vs) = some t ∧ 1000000 ≤ t) := by
  obtain ⟨vs, h1, h2, h3, h4⟩ := extend_spec gate (coefficients (costs d gate 5) 3) maxControls 1000000 116 0 (costs d gate 5) d
    (Nat.le_trans (coefficients_order _ 3 (by omega)) hlen)
  refine ⟨vs, ?_, h2, ?_, ?_⟩
  · unfold findContinuation
    rw [show 128 - maxControls - 1 = 116 from rfl, h1]
    rfl
  · intro j hj
    obtain ⟨t, a, b, e⟩ := h3 j hj
    exact ⟨t, a, b, by exact_mod_cast e⟩
  · intro h
    obtain ⟨t, a, b⟩ := h4 h
    exact ⟨t, a, by exact_mod_cast b⟩

/-- The sorted costs of a gate from the keys of the dictionary and its look-ups. -/
theorem costs_eq (d : Data) (gate : String) (cut : Nat) (h : (keys d).Nodup) :
    costs d gate cut = ((((keys d).filter fun k => k.1 == gate).map fun k => (lookup d k).getD 0).mergeSort (· ≤ ·)).drop cut := by
  have : (d.filter fun e => e.1.1 == gate).map (·.2) = ((keys d).filter fun k => k.1 == gate).map fun k => (lookup d k).getD 0 := by
    unfold keys
    rw [List.filter_map, List.map_map]
    refine List.map_congr_left fun e he => ?_
    have hm := (List.mem_filter.1 he).1
    simp only [Function.comp]
    have : lookup d e.1 = some e.2 := by
      clear he
      induction d with
      | nil => simp at hm
      | cons x d ih =>
        have hn : x.1 ∉ keys d ∧ (keys d).Nodup := by simpa [keys] using h
        rw [lookup_cons]
        rcases List.mem_cons.1 hm with rfl | hm
        · rw [if_pos rfl]
        · rw [if_neg, ih hn.2 hm]
          intro hh
          exact hn.1 (hh ▸ List.mem_map_of_mem hm)
    rw [this]
    rfl
  unfold costs
  rw [this]

theorem keys_update_filter (q : String × Nat → Bool) (l d : Data) :
    (keys (update d l)).filter q = ((keys l).filter q).foldl (fun ks k => if k ∈ ks then ks else ks ++ [k]) ((keys d).filter q) := by
  rw [keys_update]
  generalize keys d = ks
  generalize keys l = kl
  induction kl generalizing ks with
  | nil => rfl
  | cons k kl ih =>
    rw [List.foldl_cons, ih]
    by_cases hq : q k = true
    · rw [List.filter_cons_of_pos hq, List.foldl_cons]
      congr 1
      by_cases hk : k ∈ ks
      · rw [if_pos hk, if_pos (List.mem_filter.2 ⟨hk, hq⟩)]
      · rw [if_neg hk, if_neg (fun hh => hk (List.mem_filter.1 hh).1), List.filter_append, List.filter_cons_of_pos hq]
        rfl
    · rw [List.filter_cons_of_neg hq]
      congr 1
      split
      · rfl
      · rw [List.filter_append, List.filter_cons_of_neg hq]
        simp

/-! ## Special cases -/

theorem lookup_setDefault (d : Data) (k k' : String × Nat) (v : Int) : lookup (setDefault d k v) k' = (lookup d k').or (if k' = k then some v else none) := by
  unfold setDefault
  split
  · rename_i h
    by_cases hk : k' = k
    · subst hk
      have : (lookup d k').isSome := by rw [lookup_isSome]; simpa [keys] using h
      obtain ⟨w, hw⟩ := Option.isSome_iff_exists.1 this
      simp [hw]
    · simp [hk]
  · unfold lookup
    rw [List.find?_append]
    by_cases hk : k' = k
    · subst hk
      cases h : d.find? (fun e => e.1 == k') <;> simp
    · have : (k == k') = false := by simpa using fun h => hk h.symm
      simp [this, hk]

theorem keys_setDefault (d : Data) (k : String × Nat) (v : Int) : keys (setDefault d k v) = if k ∈ keys d then keys d else keys d ++ [k] := by
  have h : d.any (fun e => e.1 == k) = true ↔ k ∈ keys d := by simp [keys]
  unfold setDefault
  by_cases hk : k ∈ keys d
  · rw [if_pos (h.2 hk), if_pos hk]
  · rw [if_neg (fun hh => hk (h.1 hh)), if_neg hk]
    simp [keys]

theorem nodup_setDefault (d : Data) (k : String × Nat) (v : Int) (h : (keys d).Nodup) : (keys (setDefault d k v)).Nodup := by
  rw [keys_setDefault]
  split
  · exact h
  · rename_i hk
    rw [List.nodup_append]
    exact ⟨h, by simp, by rintro a ha b hb rfl; rw [List.mem_singleton] at hb; exact hk (hb ▸ ha)⟩

theorem lookup_special (d : Data) (gates : List String) (u : String) (k : String × Nat) :
    lookup (addSpecialCaseData d gates u) k = (lookup d k).or (if k.1 ∈ gates then lookup d (u, k.2) else none) := by
  have hin : ∀ (gs : List String) (c : Nat) (v : Int) (a : Data),
      lookup (gs.foldl (fun a g => setDefault a (g, c) v) a) k = (lookup a k).or (if k.1 ∈ gs ∧ k.2 = c then some v else none) := by
    intro gs c v
    induction gs with
    | nil => intro a; simp
    | cons g gs ih =>
      intro a
      rw [List.foldl_cons, ih, lookup_setDefault, Option.or_assoc]
      congr 1
      obtain ⟨kg, kc⟩ := k
      by_cases h1 : kg = g <;> by_cases h2 : kc = c <;> by_cases h3 : kg ∈ gs <;> simp [h1, h2, h3, List.mem_cons] <;> simp_all
  have main : ∀ (l a : Data), lookup (l.foldl (fun acc e => if e.1.1 = u then gates.foldl (fun a g => setDefault a (g, e.1.2) e.2) acc else acc) a) k
      = (lookup a k).or (if k.1 ∈ gates then lookup l (u, k.2) else none) := by
    intro l
    induction l with
    | nil => intro a; simp [lookup]
    | cons e l ih =>
      intro a
      rw [List.foldl_cons, ih, lookup_cons]
      by_cases hu : e.1.1 = u
      · rw [if_pos hu, hin, Option.or_assoc]
        congr 1
        by_cases hg : k.1 ∈ gates
        · by_cases hc : k.2 = e.1.2
          · have : (u, k.2) = e.1 := Prod.ext hu.symm hc
            rw [if_pos hg, if_pos hg, if_pos this, if_pos ⟨hg, hc⟩]
            rfl
          · have : (u, k.2) ≠ e.1 := fun h => hc (by rw [← h])
            simp [hg, hc, this]
        · simp [hg]
      · rw [if_neg hu]
        have : (u, k.2) ≠ e.1 := fun h => hu (by rw [← h])
        rw [if_neg this]
  exact main d d

theorem nodup_special (d : Data) (gates : List String) (u : String) (h : (keys d).Nodup) : (keys (addSpecialCaseData d gates u)).Nodup := by
  have hin : ∀ (gs : List String) (c : Nat) (v : Int) (a : Data), (keys a).Nodup → (keys (gs.foldl (fun a g => setDefault a (g, c) v) a)).Nodup := by
    intro gs c v
    induction gs with
    | nil => intro a h; exact h
    | cons g gs ih => intro a h; exact ih _ (nodup_setDefault _ _ _ h)
  have main : ∀ (l a : Data), (keys a).Nodup →
      (keys (l.foldl (fun acc e => if e.1.1 = u then gates.foldl (fun a g => setDefault a (g, e.1.2) e.2) acc else acc) a)).Nodup := by
    intro l
    induction l with
    | nil => intro a h; exact h
    | cons e l ih =>
      intro a h
      rw [List.foldl_cons]
      refine ih _ ?_
      split
      · exact hin _ _ _ _ h
      · exact h
  exact main d d h

/-! ## Reading a written profile -/

theorem readSize_int (t : Int) : readSize (' ' :: intDigits t) = (asSize t).map fun n => (n, []) := by
  by_cases hneg : t < 0
  · obtain ⟨h1, h2, h3⟩ := decDigits_spec t.natAbs
    have hw := takeWhile_append_stop (p := isDigitC) (decDigits t.natAbs) [] (fun c hc => (h1 c hc).1) (Or.inl rfl)
    rw [List.append_nil] at hw
    have hsp : (' ' :: '-' :: decDigits t.natAbs).dropWhile isSpaceC = '-' :: decDigits t.natAbs := by
      have a : isSpaceC ' ' = true := by decide
      have b : isSpaceC '-' = false := by decide
      simp [List.dropWhile, a, b]
    unfold readSize intDigits asSize
    rw [if_pos hneg]
    simp only [hsp, readSign, hw.1, hw.2]
    rw [if_neg h2, h3]
    by_cases hs : t.natAbs < 2 ^ 64
    · rw [if_pos hs, if_pos (show t.natAbs < szMod from hs)]
      simp only [if_true, Option.map_some, Option.some.injEq, Prod.mk.injEq, and_true]
      unfold szMod
      omega
    · rw [if_neg hs, if_neg (show ¬ t.natAbs < szMod from hs)]
      rfl
  · unfold intDigits asSize
    rw [if_neg hneg]
    by_cases hs : t.natAbs < 2 ^ 64
    · have := readSize_dec t.natAbs hs [] (Or.inl rfl)
      rw [List.append_nil] at this
      rw [this, if_pos hs]
      simp only [Option.map_some, Option.some.injEq, Prod.mk.injEq, and_true]
      omega
    · rw [if_neg hs]
      obtain ⟨h1, h2, h3⟩ := decDigits_spec t.natAbs
      obtain ⟨a, r, har⟩ : ∃ a r, decDigits t.natAbs = a :: r := by
        cases hd : decDigits t.natAbs with
        | nil => exact absurd hd h2
        | cons a r => exact ⟨a, r, rfl⟩
      have ha := h1 a (by rw [har]; simp)
      have hsp : (' ' :: decDigits t.natAbs).dropWhile isSpaceC = decDigits t.natAbs := by
        have b : isSpaceC ' ' = true := by decide
        rw [har]
        simp [List.dropWhile, b, ha.2]
      have hsign : readSign (decDigits t.natAbs) = (false, decDigits t.natAbs) := by
        rw [har]
        unfold readSign
        split
        · rename_i heq; simp at heq; rw [heq.1] at ha; exact absurd ha.1 (by decide)
        · rename_i heq; simp at heq; rw [heq.1] at ha; exact absurd ha.1 (by decide)
        · rfl
      have hw := takeWhile_append_stop (p := isDigitC) (decDigits t.natAbs) [] (fun c hc => (h1 c hc).1) (Or.inl rfl)
      rw [List.append_nil] at hw
      unfold readSize
      simp only [hsp, hsign, hw.1]
      rw [if_neg h2, h3, if_neg (show ¬ t.natAbs < szMod from hs)]
      rfl

theorem no_newline_int (t : Int) : '\n' ∉ intDigits t := by
  unfold intDigits
  split
  · intro h
    rcases List.mem_cons.1 h with h | h
    · exact absurd h (by decide)
    · exact no_newline_digits _ h
  · exact no_newline_digits _

/-- A written line without its newline. -/
def lineOf (e : (String × Nat) × Int) : List Char := e.1.1.toList ++ ([' '] ++ decDigits e.1.2 ++ [' '] ++ intDigits e.2)

theorem parse_line (opOf : String → Option OpType) (e : (String × Nat) × Int) (op : OpType) (hg : GoodName e.1.1) (hop : opOf e.1.1 = some op)
    (h1 : e.1.2 < szMod) : parseProfileLine opOf (lineOf e) = match asSize e.2 with | some n => .entry (op, e.1.2) n | none => .skip := by
  obtain ⟨hne, hsp, hhash⟩ := hg
  have hcond : ¬ (lineOf e = [] ∨ (lineOf e).head? = some '#') := by
    unfold lineOf
    rintro (h | h)
    · simp at h
    · cases hl : e.1.1.toList with
      | nil => exact hne hl
      | cons a t => rw [hl] at h hhash; simp at h hhash; exact hhash h
  have htok : readToken (lineOf e) = (e.1.1.toList, [' '] ++ decDigits e.1.2 ++ [' '] ++ intDigits e.2) := by
    unfold readToken lineOf
    have hd : (e.1.1.toList ++ ([' '] ++ decDigits e.1.2 ++ [' '] ++ intDigits e.2)).dropWhile isSpaceC =
        e.1.1.toList ++ ([' '] ++ decDigits e.1.2 ++ [' '] ++ intDigits e.2) := by
      cases hl : e.1.1.toList with
      | nil => exact absurd hl hne
      | cons a t =>
        have := hsp a (by rw [hl]; simp)
        simp [this]
    rw [hd]
    have := takeWhile_append_stop (p := fun c => !isSpaceC c) e.1.1.toList
      ([' '] ++ decDigits e.1.2 ++ [' '] ++ intDigits e.2) (fun c hc => by simp [hsp c hc])
      (Or.inr ⟨' ', decDigits e.1.2 ++ [' '] ++ intDigits e.2, by simp, by decide⟩)
    simp only [this.1, this.2]
  have hr1 := readSize_dec e.1.2 h1 (' ' :: intDigits e.2) (Or.inr ⟨' ', intDigits e.2, rfl, by decide⟩)
  have e1 : [' '] ++ decDigits e.1.2 ++ [' '] ++ intDigits e.2 = ' ' :: decDigits e.1.2 ++ ' ' :: intDigits e.2 := by simp
  unfold parseProfileLine
  rw [if_neg hcond, htok]
  simp only [if_neg hne, String.ofList_toList, hop]
  rw [e1, hr1]; simp only
  rw [readSize_int]
  cases asSize e.2 <;> rfl

/-- The table the C++ reader builds from a written dictionary. -/
theorem data_read (opOf : String → Option OpType) (header : List Char) (hh : '\n' ∉ header) (d : Data)
    (hname : ∀ e ∈ d, GoodName e.1.1 ∧ (opOf e.1.1).isSome) (hrange : ∀ e ∈ d, e.1.2 < szMod) :
    ∃ t, populateFromFile opOf (some (writeData header d)) = .ok t ∧
      ∀ k, t.find k = d.findSome? (fun e => if (opOf e.1.1, e.1.2) = (some k.1, k.2) then asSize e.2 else none) := by
  have hlines : ∀ d : Data, (∀ e ∈ d, GoodName e.1.1) →
      splitLines ((d.map fun e => e.1.1.toList ++ [' '] ++ decDigits e.1.2 ++ [' '] ++ intDigits e.2 ++ ['\n']).flatten) = d.map lineOf := by
    intro d
    induction d with
    | nil => intro _; simp [splitLines]
    | cons e es ih =>
      intro hg
      have hge := hg e (by simp)
      have : (List.map (fun e : (String × Nat) × Int => e.1.1.toList ++ [' '] ++ decDigits e.1.2 ++ [' '] ++ intDigits e.2 ++ ['\n']) (e :: es)).flatten =
          lineOf e ++ '\n' :: (es.map fun e => e.1.1.toList ++ [' '] ++ decDigits e.1.2 ++ [' '] ++ intDigits e.2 ++ ['\n']).flatten := by
        simp [lineOf]
      rw [this, splitLines_line, ih (fun x hx => hg x (by simp [hx]))]
      · simp
      · intro hmem
        simp [lineOf] at hmem
        rcases hmem with h | h | h
        · exact absurd (hge.2.1 _ h) (by decide)
        · exact no_newline_digits _ h
        · exact no_newline_int _ h
  have hw : splitLines (writeData header d) = ('#' :: ' ' :: header) :: d.map lineOf := by
    have : writeData header d = ('#' :: ' ' :: header) ++ '\n' :: (d.map fun e => e.1.1.toList ++ [' '] ++ decDigits e.1.2 ++ [' '] ++ intDigits e.2 ++ ['\n']).flatten := by
      simp [writeData]
    rw [this, splitLines_line _ _ (by simp [hh]), hlines d (fun e he => (hname e he).1)]
  have hparse : ∀ e ∈ d, ∃ op, opOf e.1.1 = some op ∧
      parseProfileLine opOf (lineOf e) = match asSize e.2 with | some n => .entry (op, e.1.2) n | none => .skip := by
    intro e he
    obtain ⟨op, hop⟩ := Option.isSome_iff_exists.1 (hname e he).2
    exact ⟨op, hop, parse_line opOf e op (hname e he).1 hop (hrange e he)⟩
  have hknown : AllKnown opOf (splitLines (writeData header d)) := by
    rw [hw]
    intro l hl n
    simp only [List.mem_cons, List.mem_map] at hl
    rcases hl with rfl | ⟨e, he, rfl⟩
    · simp [parseProfileLine]
    · obtain ⟨op, _, hp⟩ := hparse e he
      rw [hp]
      cases asSize e.2 <;> simp
  obtain ⟨t, ht, hf⟩ := populate_lookup opOf [] _ hknown
  refine ⟨t, ht, fun k => ?_⟩
  rw [hf k, hw]
  have hskip : parseProfileLine opOf ('#' :: ' ' :: header) = .skip := (comment_skipped opOf _).1
  simp only [CostTable.find, List.find?_nil, Option.map_none, Option.none_or, firstCost, List.findSome?_cons, hskip,
    List.findSome?_map]
  clear hf hw ht hlines hknown
  induction d with
  | nil => simp
  | cons e es ih =>
    obtain ⟨op, hop, hp⟩ := hparse e (by simp)
    have ih' := ih (fun x hx => hname x (by simp [hx])) (fun x hx => hrange x (by simp [hx])) (fun x hx => hparse x (by simp [hx]))
    rw [List.findSome?_cons, List.findSome?_cons]
    simp only [Function.comp, hp, hop]
    cases hv : asSize e.2 with
    | none =>
      simp only [ite_self]
      exact ih'
    | some n =>
      by_cases hk : (op, e.1.2) = k
      · subst hk; simp
      · have hk2 : ¬ ((some op, e.1.2) = (some k.1, k.2)) := by
          intro h; apply hk; simp at h; exact Prod.ext h.1 h.2
        simp only [if_neg hk, if_neg hk2]
        exact ih'

/-- With distinct operation types for the names, this is the look-up in the dictionary. -/
theorem findSome_lookup (opOf : String → Option OpType) (d : Data) (hn : (keys d).Nodup) (g : String) (op : OpType) (c : Nat) (hop : opOf g = some op)
    (hinj : ∀ e ∈ d, opOf e.1.1 = some op → e.1.1 = g) :
    d.findSome? (fun e => if (opOf e.1.1, e.1.2) = (some op, c) then asSize e.2 else none) = (lookup d (g, c)).bind asSize := by
  induction d with
  | nil => rfl
  | cons e d ih =>
    have hn' : e.1 ∉ keys d ∧ (keys d).Nodup := by simpa [keys] using hn
    have ih' := ih hn'.2 (fun x hx => hinj x (by simp [hx]))
    rw [List.findSome?_cons, lookup_cons, ih']
    by_cases hk : (g, c) = e.1
    · rw [if_pos hk, if_pos (by rw [← hk, hop])]
      have : lookup d (g, c) = none := by rw [lookup_none, hk]; exact hn'.1
      rw [this]
      cases h : asSize e.2 <;> simp [h]
    · rw [if_neg hk, if_neg]
      intro hh
      have h1 := hinj e (by simp) (Prod.mk.inj hh).1
      exact hk (Prod.ext h1.symm (Prod.mk.inj hh).2.symm)

end QCEC.Lemmas.ProfileGen
