import Verif.Model.Profile
import Mathlib.Data.List.Basic
/-!
# C42: gate-cost tables and profile files
-/
namespace QCEC.Props
open QCEC

/-! ## Specification -/

/-- Cost given by the first well-formed line for key `k`, if any. -/
def firstCost (opOf : String → Option OpType) (lines : List (List Char)) (k : CostKey) : Option Nat :=
  lines.findSome? (fun l => match parseProfileLine opOf l with
    | .entry k' c => if k' = k then some c else none
    | _ => none)

/-- No line mentions a gate name that mqt-core does not know. -/
def AllKnown (opOf : String → Option OpType) (lines : List (List Char)) : Prop :=
  ∀ l ∈ lines, ∀ n, parseProfileLine opOf l ≠ .unknownGate n

/-! ## Table lemmas -/

theorem find_emplace (t : CostTable) (k k' : CostKey) (v : Nat) :
    (t.emplace k v).find k' = (t.find k').or (if k = k' then some v else none) := by
  unfold CostTable.emplace
  cases h : t.find k with
  | some w =>
    by_cases hk : k = k'
    · subst hk; simp [h]
    · simp [hk]
  | none =>
    unfold CostTable.find at *
    rw [List.find?_append]
    by_cases hk : k = k'
    · subst hk
      cases h' : t.find? (fun e => e.1 == k) with
      | none => simp [List.find?]
      | some e => rw [h'] at h; simp at h
    · have hb : (k == k') = false := by simpa using hk
      cases h' : t.find? (fun e => e.1 == k') <;> simp [List.find?, hb, hk]

/-! ## C42 -/

/-- C42: reading a profile succeeds iff every gate name is known, and then the table maps each key to the cost of its
first well-formed line (and has no other keys); comments, empty and malformed lines have no influence. -/
theorem populate_lookup (opOf : String → Option OpType) (t : CostTable) (lines : List (List Char))
    (h : AllKnown opOf lines) :
    ∃ t', populateFromLines opOf t lines = .ok t' ∧ ∀ k, t'.find k = (t.find k).or (firstCost opOf lines k) := by
  induction lines generalizing t with
  | nil => exact ⟨t, rfl, fun k => by simp [firstCost]⟩
  | cons l ls ih =>
    have hls : AllKnown opOf ls := fun l' hl' => h l' (List.mem_cons_of_mem _ hl')
    unfold populateFromLines
    cases hp : parseProfileLine opOf l with
    | skip =>
      obtain ⟨t', h1, h2⟩ := ih t hls
      refine ⟨t', h1, fun k => ?_⟩
      rw [h2]; simp [firstCost, hp]
    | entry k0 c =>
      obtain ⟨t', h1, h2⟩ := ih (t.emplace k0 c) hls
      refine ⟨t', h1, fun k => ?_⟩
      rw [h2, find_emplace]
      by_cases hk : k0 = k
      · subst hk; cases t.find k0 <;> simp [firstCost, hp]
      · cases t.find k <;> simp [firstCost, hp, hk]
    | unknownGate n => exact absurd hp (h l (by simp) n)

/-- C42: an unknown gate name is reported (the constructor throws) and no table results. -/
theorem populate_unknown (opOf : String → Option OpType) (t : CostTable) (pre post : List (List Char)) (l : List Char)
    (n : String) (h : AllKnown opOf pre) (hl : parseProfileLine opOf l = .unknownGate n) :
    populateFromLines opOf t (pre ++ l :: post) = .error n := by
  induction pre generalizing t with
  | nil => simp [populateFromLines, hl]
  | cons a as ih =>
    have has : AllKnown opOf as := fun l' hl' => h l' (List.mem_cons_of_mem _ hl')
    simp only [List.cons_append]
    unfold populateFromLines
    cases hp : parseProfileLine opOf a with
    | skip => exact ih t has
    | entry k0 c => exact ih _ has
    | unknownGate m => exact absurd hp (h a (by simp) m)

/-- C42: a missing profile file is an error, never an empty table. -/
theorem missing_file_is_error (opOf : String → Option OpType) : ∃ e, populateFromFile opOf none = .error e :=
  ⟨_, rfl⟩

/-- C42: comment lines and empty lines are skipped, for every gate-name table. -/
theorem comment_skipped (opOf : String → Option OpType) (txt : List Char) :
    parseProfileLine opOf ('#' :: txt) = .skip ∧ parseProfileLine opOf [] = .skip := by
  simp [parseProfileLine]

theorem populateFromCircuit_find (f : CostKey → Nat) (t : CostTable) (ops : List CostKey) (k : CostKey) :
    (populateFromCircuit f t ops).find k = (t.find k).or (if k ∈ ops then some (f k) else none) := by
  induction ops generalizing t with
  | nil => simp [populateFromCircuit]
  | cons a as ih =>
    have hstep : populateFromCircuit f t (a :: as) =
        populateFromCircuit f (match t.find a with | some _ => t | none => t.emplace a (f a)) as := rfl
    rw [hstep, ih]
    cases ha : t.find a with
    | some v =>
      by_cases hk : k = a
      · subst hk; simp [ha]
      · simp [hk]
    | none =>
      simp only [find_emplace]
      by_cases hk : a = k
      · subst hk; cases t.find a <;> simp
      · have hk' : k ≠ a := fun h => hk h.symm
        cases t.find k <;> simp [hk, hk']

/-- C42: with a cost function, every operation of either circuit is looked up at exactly the function's value, and no
other key is in the table. -/
theorem costFunctionTable_lookup (f : CostKey → Nat) (ops1 ops2 : List CostKey) (k : CostKey) :
    (costFunctionTable f ops1 ops2).find k = if k ∈ ops1 ∨ k ∈ ops2 then some (f k) else none := by
  unfold costFunctionTable
  rw [populateFromCircuit_find, populateFromCircuit_find]
  by_cases h1 : k ∈ ops1 <;> by_cases h2 : k ∈ ops2 <;> simp [CostTable.find, h1, h2]

/-! ### Round trip writer → reader -/

theorem isDigitC_ofNat (d : Nat) (h : d < 10) :
    isDigitC (Char.ofNat (48 + d)) = true ∧ digitVal (Char.ofNat (48 + d)) = d ∧
    isSpaceC (Char.ofNat (48 + d)) = false := by
  revert d; decide

theorem decDigits_spec (n : Nat) :
    (∀ c ∈ decDigits n, isDigitC c = true ∧ isSpaceC c = false) ∧ decDigits n ≠ [] ∧ digitsVal (decDigits n) = n := by
  induction n using Nat.strongRecOn with
  | _ n ih =>
    unfold decDigits
    split
    · rename_i h
      obtain ⟨a, b, c⟩ := isDigitC_ofNat n h
      refine ⟨?_, by simp, ?_⟩
      · intro x hx; simp at hx; subst hx; exact ⟨a, c⟩
      · simp [digitsVal, b]
    · rename_i h
      obtain ⟨i1, i2, i3⟩ := ih (n / 10) (by omega)
      obtain ⟨a, b, c⟩ := isDigitC_ofNat (n % 10) (by omega)
      refine ⟨?_, by simp, ?_⟩
      · intro x hx
        simp at hx
        rcases hx with hx | hx
        · exact i1 x hx
        · subst hx; exact ⟨a, c⟩
      · unfold digitsVal at *
        rw [List.foldl_append, i3]
        simp [b]; omega

theorem takeWhile_append_stop {p : Char → Bool} (w r : List Char) (hw : ∀ c ∈ w, p c = true)
    (hr : r = [] ∨ ∃ c s, r = c :: s ∧ p c = false) :
    (w ++ r).takeWhile p = w ∧ (w ++ r).dropWhile p = r := by
  induction w with
  | nil =>
    rcases hr with rfl | ⟨c, s, rfl, hc⟩
    · simp
    · simp [hc]
  | cons a t ih =>
    have ha := hw a (by simp)
    have := ih (fun c hc => hw c (by simp [hc]))
    simp [ha, this.1, this.2]

theorem readSize_dec (n : Nat) (hn : n < szMod) (rest : List Char)
    (hr : rest = [] ∨ ∃ c s, rest = c :: s ∧ isDigitC c = false) :
    readSize (' ' :: decDigits n ++ rest) = some (n, rest) := by
  obtain ⟨h1, h2, h3⟩ := decDigits_spec n
  obtain ⟨a, t, hat⟩ : ∃ a t, decDigits n = a :: t := by
    cases hd : decDigits n with
    | nil => exact absurd hd h2
    | cons a t => exact ⟨a, t, rfl⟩
  have ha := h1 a (by rw [hat]; simp)
  have hne1 : a ≠ '-' := by rintro rfl; exact absurd ha.1 (by decide)
  have hne2 : a ≠ '+' := by rintro rfl; exact absurd ha.1 (by decide)
  have hsp : (' ' :: decDigits n ++ rest).dropWhile isSpaceC = decDigits n ++ rest := by
    have : isSpaceC ' ' = true := by decide
    simp only [List.cons_append, List.dropWhile, this]
    rw [hat]; simp [ha.2]
  have hw := takeWhile_append_stop (p := isDigitC) (decDigits n) rest (fun c hc => (h1 c hc).1) hr
  have hmatch : readSign (decDigits n ++ rest) = (false, decDigits n ++ rest) := by
    rw [hat]; simp only [List.cons_append]
    unfold readSign
    split
    · rename_i heq; simp at heq; exact absurd heq.1 hne1
    · rename_i heq; simp at heq; exact absurd heq.1 hne2
    · rfl
  unfold readSize
  simp only [hsp, hmatch, hw.1, hw.2]
  rw [if_neg h2, h3, if_pos hn]; simp

/-- **C42.** A plus sign in front of a number changes nothing; after a minus sign the number read is `2^64 - n`, as `strtoull` has it. -/
theorem readSize_sign (n : Nat) (hn : n < szMod) (rest : List Char) (hr : rest = [] ∨ ∃ c s, rest = c :: s ∧ isDigitC c = false) :
    readSize (' ' :: '+' :: decDigits n ++ rest) = some (n, rest) ∧
      readSize (' ' :: '-' :: decDigits n ++ rest) = some (if n = 0 then 0 else szMod - n, rest) := by
  obtain ⟨h1, h2, h3⟩ := decDigits_spec n
  have hw := takeWhile_append_stop (p := isDigitC) (decDigits n) rest (fun c hc => (h1 c hc).1) hr
  have e1 : isSpaceC ' ' = true := by decide
  have e2 : isSpaceC '+' = false := by decide
  have e3 : isSpaceC '-' = false := by decide
  constructor
  · unfold readSize
    simp only [List.cons_append, List.dropWhile, e1, e2, readSign, hw.1, hw.2]
    rw [if_neg h2, h3, if_pos hn]; simp
  · unfold readSize
    simp only [List.cons_append, List.dropWhile, e1, e3, readSign, hw.1, hw.2]
    rw [if_neg h2, h3, if_pos hn]
    simp only [if_true, Option.some.injEq, Prod.mk.injEq, and_true]
    split
    · subst_vars; simp
    · exact Nat.mod_eq_of_lt (by omega)

/-- Gate names that can be written to a profile: non-empty, no white space, not starting a comment. -/
def GoodName (s : String) : Prop :=
  s.toList ≠ [] ∧ (∀ c ∈ s.toList, isSpaceC c = false) ∧ s.toList.head? ≠ some '#'

theorem parse_written_line (opOf : String → Option OpType) (e : (String × Nat) × Nat) (op : OpType)
    (hg : GoodName e.1.1) (hop : opOf e.1.1 = some op) (h1 : e.1.2 < szMod) (h2 : e.2 < szMod) :
    parseProfileLine opOf (e.1.1.toList ++ ([' '] ++ decDigits e.1.2 ++ [' '] ++ decDigits e.2)) =
      .entry (op, e.1.2) e.2 := by
  obtain ⟨hne, hsp, hhash⟩ := hg
  have hcond : ¬ (e.1.1.toList ++ ([' '] ++ decDigits e.1.2 ++ [' '] ++ decDigits e.2) = [] ∨
      (e.1.1.toList ++ ([' '] ++ decDigits e.1.2 ++ [' '] ++ decDigits e.2)).head? = some '#') := by
    rintro (h | h)
    · simp at h
    · cases hl : e.1.1.toList with
      | nil => exact hne hl
      | cons a t => rw [hl] at h hhash; simp at h hhash; exact hhash h
  have htok : readToken (e.1.1.toList ++ ([' '] ++ decDigits e.1.2 ++ [' '] ++ decDigits e.2)) =
      (e.1.1.toList, [' '] ++ decDigits e.1.2 ++ [' '] ++ decDigits e.2) := by
    unfold readToken
    have hd : (e.1.1.toList ++ ([' '] ++ decDigits e.1.2 ++ [' '] ++ decDigits e.2)).dropWhile isSpaceC =
        e.1.1.toList ++ ([' '] ++ decDigits e.1.2 ++ [' '] ++ decDigits e.2) := by
      cases hl : e.1.1.toList with
      | nil => exact absurd hl hne
      | cons a t =>
        have := hsp a (by rw [hl]; simp)
        simp [this]
    rw [hd]
    have := takeWhile_append_stop (p := fun c => !isSpaceC c) e.1.1.toList
      ([' '] ++ decDigits e.1.2 ++ [' '] ++ decDigits e.2) (fun c hc => by simp [hsp c hc])
      (Or.inr ⟨' ', decDigits e.1.2 ++ [' '] ++ decDigits e.2, by simp, by decide⟩)
    simp only [this.1, this.2]
  have hr1 := readSize_dec e.1.2 h1 (' ' :: decDigits e.2) (Or.inr ⟨' ', decDigits e.2, rfl, by decide⟩)
  have hr2 := readSize_dec e.2 h2 [] (Or.inl rfl)
  have e1 : [' '] ++ decDigits e.1.2 ++ [' '] ++ decDigits e.2 = ' ' :: decDigits e.1.2 ++ ' ' :: decDigits e.2 := by simp
  have e2 : (' ' :: decDigits e.2) = ' ' :: decDigits e.2 ++ [] := by simp
  unfold parseProfileLine
  rw [if_neg hcond, htok]
  simp only [if_neg hne, String.ofList_toList, hop]
  rw [e1, hr1]; simp only
  rw [e2, hr2]

theorem splitLines_line (w rest : List Char) (hw : '\n' ∉ w) :
    splitLines (w ++ '\n' :: rest) = w :: splitLines rest := by
  induction w with
  | nil => rw [List.nil_append, splitLines.eq_def]; simp
  | cons a t ih =>
    have ha : a ≠ '\n' := fun h => hw (by simp [h])
    have ht : '\n' ∉ t := fun h => hw (by simp [h])
    have := ih ht
    rw [List.cons_append]
    cases t with
    | nil =>
      simp only [List.nil_append] at this ⊢
      rw [splitLines.eq_def]; simp [ha, this]
    | cons b s =>
      rw [List.cons_append] at this ⊢
      rw [splitLines.eq_def]; simp [ha, this]

theorem no_newline_digits (n : Nat) : '\n' ∉ decDigits n := by
  intro h; exact absurd ((decDigits_spec n).1 _ h).1 (by decide)

/-- C42 (round trip): the profile written for a dictionary is read back as exactly this dictionary – for every set of
gates, control counts and costs representable in 64 bits, and every header line. -/
theorem profile_roundtrip (opOf : String → Option OpType) (header : List Char) (hh : '\n' ∉ header) (d : ProfileData)
    (hname : ∀ e ∈ d, GoodName e.1.1 ∧ (opOf e.1.1).isSome) (hrange : ∀ e ∈ d, e.1.2 < szMod ∧ e.2 < szMod) :
    ∃ t, populateFromFile opOf (some (writeProfile header d)) = .ok t ∧
      ∀ k, t.find k = d.findSome? (fun e => if (opOf e.1.1, e.1.2) = (some k.1, k.2) then some e.2 else none) := by
  have hlines : ∀ d : ProfileData, (∀ e ∈ d, GoodName e.1.1) →
      splitLines ((d.map profileLine).flatten) =
        d.map (fun e => e.1.1.toList ++ ([' '] ++ decDigits e.1.2 ++ [' '] ++ decDigits e.2)) := by
    intro d
    induction d with
    | nil => intro _; simp [splitLines]
    | cons e es ih =>
      intro hg
      have hge := hg e (by simp)
      have : (List.map profileLine (e :: es)).flatten =
          (e.1.1.toList ++ ([' '] ++ decDigits e.1.2 ++ [' '] ++ decDigits e.2)) ++ '\n' :: (es.map profileLine).flatten := by
        simp [profileLine]
      rw [this, splitLines_line, ih (fun x hx => hg x (by simp [hx]))]
      · simp
      · intro hmem
        simp at hmem
        rcases hmem with h | h | h
        · exact absurd (hge.2.1 _ h) (by decide)
        · exact no_newline_digits _ h
        · exact no_newline_digits _ h
  have hw : splitLines (writeProfile header d) =
      ('#' :: ' ' :: header) :: d.map (fun e => e.1.1.toList ++ ([' '] ++ decDigits e.1.2 ++ [' '] ++ decDigits e.2)) := by
    have : writeProfile header d = ('#' :: ' ' :: header) ++ '\n' :: (d.map profileLine).flatten := by
      simp [writeProfile]
    rw [this, splitLines_line _ _ (by simp [hh]), hlines d (fun e he => (hname e he).1)]
  have hparse : ∀ e ∈ d, ∃ op, opOf e.1.1 = some op ∧
      parseProfileLine opOf (e.1.1.toList ++ ([' '] ++ decDigits e.1.2 ++ [' '] ++ decDigits e.2)) = .entry (op, e.1.2) e.2 := by
    intro e he
    obtain ⟨op, hop⟩ := Option.isSome_iff_exists.1 (hname e he).2
    exact ⟨op, hop, parse_written_line opOf e op (hname e he).1 hop (hrange e he).1 (hrange e he).2⟩
  have hknown : AllKnown opOf (splitLines (writeProfile header d)) := by
    rw [hw]
    intro l hl n
    simp only [List.mem_cons, List.mem_map] at hl
    rcases hl with rfl | ⟨e, he, rfl⟩
    · simp [parseProfileLine]
    · obtain ⟨op, _, hp⟩ := hparse e he
      rw [hp]; simp
  obtain ⟨t, ht, hf⟩ := populate_lookup opOf [] _ hknown
  refine ⟨t, ht, fun k => ?_⟩
  rw [hf k, hw]
  have hskip : parseProfileLine opOf ('#' :: ' ' :: header) = .skip := (comment_skipped opOf _).1
  simp only [CostTable.find, List.find?_nil, Option.map_none, Option.none_or, firstCost, List.findSome?_cons, hskip,
    List.findSome?_map]
  clear hf hw ht hlines hknown
  induction d with
  | nil => simp
  | cons e es ih =>
    obtain ⟨op, hop, hp⟩ := hparse e (by simp)
    have ih' := ih (fun x hx => hname x (by simp [hx])) (fun x hx => hrange x (by simp [hx])) (fun x hx => hparse x (by simp [hx]))
    rw [List.findSome?_cons, List.findSome?_cons]
    simp only [Function.comp, hp, hop]
    by_cases hk : (op, e.1.2) = k
    · subst hk; simp
    · have hk2 : ¬ ((some op, e.1.2) = (some k.1, k.2)) := by
        intro h; apply hk; simp at h; exact Prod.ext h.1 h.2
      simp only [if_neg hk, if_neg hk2]
      exact ih'

/-- non-vacuity of the round trip: two entries with header. -/
example : ∃ t, populateFromFile (fun s => if s = "x" then some .X else if s = "p" then some .P else none)
      (some (writeProfile "qiskit_O1.profile, Qiskit version: 1.2".toList [(("x", 0), 1), (("p", 12), 345)])) = .ok t ∧
    t.find (.P, 12) = some 345 := by
  obtain ⟨t, h1, h2⟩ := profile_roundtrip (fun s => if s = "x" then some .X else if s = "p" then some .P else none)
    "qiskit_O1.profile, Qiskit version: 1.2".toList (by decide) [(("x", 0), 1), (("p", 12), 345)]
    (by intro e he; rcases List.mem_cons.1 he with rfl | he
        · exact ⟨⟨by decide, by decide, by decide⟩, rfl⟩
        · rcases List.mem_cons.1 he with rfl | he
          · exact ⟨⟨by decide, by decide, by decide⟩, rfl⟩
          · cases he)
    (by intro e he; rcases List.mem_cons.1 he with rfl | he
        · exact ⟨by decide, by decide⟩
        · rcases List.mem_cons.1 he with rfl | he
          · exact ⟨by decide, by decide⟩
          · cases he)
  exact ⟨t, h1, by rw [h2]; decide⟩

/-! ### Special cases -/

theorem any_iff (d : ProfileData) (k : String × Nat) :
    d.any (fun e => e.1 == k) = true ↔ ∃ v, (k, v) ∈ d := by
  rw [List.any_eq_true]
  constructor
  · rintro ⟨⟨a, v⟩, h1, h2⟩
    simp at h2; subst h2; exact ⟨v, h1⟩
  · rintro ⟨v, h⟩; exact ⟨_, h, by simp⟩

theorem setDefault_sub (d : ProfileData) (k : String × Nat) (v : Nat) (e) (h : e ∈ d) : e ∈ d.setDefault k v := by
  unfold ProfileData.setDefault; split <;> simp [h]

theorem setDefault_new (d : ProfileData) (k : String × Nat) (v : Nat) (e) (h : e ∈ d.setDefault k v) :
    e ∈ d ∨ (e = (k, v) ∧ ∀ w, (k, w) ∉ d) := by
  unfold ProfileData.setDefault at h
  split at h
  · exact Or.inl h
  · rename_i hn
    simp at h
    rcases h with h | h
    · exact Or.inl h
    · right; refine ⟨h, fun w hw => hn ((any_iff d k).2 ⟨w, hw⟩)⟩

/-- C42: special cases never change or drop measured costs. -/
theorem addSpecialCases_keeps (d : ProfileData) (gates : List String) (u : String) (e) (h : e ∈ d) :
    e ∈ addSpecialCases d gates u := by
  unfold addSpecialCases
  have h2 : ∀ (gs : List String) (nc v : Nat) (a : ProfileData), e ∈ a →
      e ∈ gs.foldl (fun a g => a.setDefault (g, nc) v) a := by
    intro gs nc v
    induction gs with
    | nil => intro a h; exact h
    | cons g gs ih => intro a h; exact ih _ (setDefault_sub _ _ _ _ h)
  have h1 : ∀ (l a : ProfileData), e ∈ a → e ∈ l.foldl (fun acc e => if e.1.1 = u then
      gates.foldl (fun a g => a.setDefault (g, e.1.2) e.2) acc else acc) a := by
    intro l
    induction l with
    | nil => intro a h; exact h
    | cons x xs ih =>
      intro a h
      simp only [List.foldl_cons]
      apply ih
      split
      · exact h2 _ _ _ _ h
      · exact h
  exact h1 d d h

/-- C42: after extrapolation every special gate has an entry wherever the underlying gate has one. -/
theorem addSpecialCases_covers (d : ProfileData) (gates : List String) (u : String) (nc v : Nat)
    (h : ((u, nc), v) ∈ d) (g : String) (hg : g ∈ gates) : ∃ w, ((g, nc), w) ∈ addSpecialCases d gates u := by
  unfold addSpecialCases
  have keep : ∀ (gs : List String) (n c : Nat) (a : ProfileData) (e), e ∈ a →
      e ∈ gs.foldl (fun a g => a.setDefault (g, n) c) a := by
    intro gs n c
    induction gs with
    | nil => intro a e h; exact h
    | cons g gs ih => intro a e h; exact ih _ _ (setDefault_sub _ _ _ _ h)
  have keep2 : ∀ (l a : ProfileData) (e), e ∈ a → e ∈ l.foldl (fun acc e => if e.1.1 = u then
      gates.foldl (fun a g => a.setDefault (g, e.1.2) e.2) acc else acc) a := by
    intro l
    induction l with
    | nil => intro a e h; exact h
    | cons x xs ih =>
      intro a e h
      simp only [List.foldl_cons]
      apply ih
      split
      · exact keep _ _ _ _ _ h
      · exact h
  have add : ∀ (gs : List String) (n c : Nat) (a : ProfileData), g ∈ gs →
      ∃ w, ((g, n), w) ∈ gs.foldl (fun a g => a.setDefault (g, n) c) a := by
    intro gs n c
    induction gs with
    | nil => intro a h; simp at h
    | cons x xs ih =>
      intro a h
      simp only [List.foldl_cons]
      rcases List.mem_cons.1 h with rfl | h
      · have : ∃ w, ((g, n), w) ∈ a.setDefault (g, n) c := by
          unfold ProfileData.setDefault
          split
          · rename_i hh; exact (any_iff _ _).1 hh
          · exact ⟨c, by simp⟩
        obtain ⟨w, hw⟩ := this
        exact ⟨w, keep _ _ _ _ _ hw⟩
      · exact ih _ h
  have main : ∀ (l a : ProfileData), ((u, nc), v) ∈ l → ∃ w, ((g, nc), w) ∈ l.foldl (fun acc e => if e.1.1 = u then
      gates.foldl (fun a g => a.setDefault (g, e.1.2) e.2) acc else acc) a := by
    intro l
    induction l with
    | nil => intro a h; simp at h
    | cons x xs ih =>
      intro a h
      simp only [List.foldl_cons]
      rcases List.mem_cons.1 h with rfl | h
      · simp only [if_true]
        obtain ⟨w, hw⟩ := add gates nc v a hg
        exact ⟨w, keep2 _ _ _ hw⟩
      · exact ih _ h
  exact main d d h

/-- C42: and nothing else is added: each added entry belongs to a special gate and carries the cost of the underlying gate
with the same number of controls. -/
theorem addSpecialCases_only (d : ProfileData) (gates : List String) (u : String) (e)
    (h : e ∈ addSpecialCases d gates u) :
    e ∈ d ∨ (e.1.1 ∈ gates ∧ ((u, e.1.2), e.2) ∈ d ∧ ∀ w, (e.1, w) ∉ d) := by
  unfold addSpecialCases at h
  have inner : ∀ (gs : List String) (n c : Nat) (a : ProfileData) (e),
      e ∈ gs.foldl (fun a g => a.setDefault (g, n) c) a →
      e ∈ a ∨ (e.1.1 ∈ gs ∧ e.1.2 = n ∧ e.2 = c ∧ ∀ w, (e.1, w) ∉ a) := by
    intro gs n c
    induction gs with
    | nil => intro a e h; exact Or.inl h
    | cons g gs ih =>
      intro a e h
      simp only [List.foldl_cons] at h
      rcases ih _ _ h with h | ⟨h1, h2, h3, h4⟩
      · rcases setDefault_new _ _ _ _ h with h | ⟨h, hn⟩
        · exact Or.inl h
        · right; subst h; exact ⟨by simp, rfl, rfl, hn⟩
      · right
        exact ⟨by simp [h1], h2, h3, fun w hw => h4 w (setDefault_sub _ _ _ _ hw)⟩
  have keep2 : ∀ (gs : List String) (n c : Nat) (a : ProfileData) (e), e ∈ a →
      e ∈ gs.foldl (fun a g => a.setDefault (g, n) c) a := by
    intro gs n c
    induction gs with
    | nil => intro a e h; exact h
    | cons g gs ih => intro a e h; exact ih _ _ (setDefault_sub _ _ _ _ h)
  have main : ∀ (l a : ProfileData), (∀ x ∈ l, x ∈ d) → (∀ x ∈ d, x ∈ a) →
      (∀ x ∈ a, x ∈ d ∨ (x.1.1 ∈ gates ∧ ((u, x.1.2), x.2) ∈ d ∧ ∀ w, (x.1, w) ∉ d)) →
      ∀ x ∈ l.foldl (fun acc e => if e.1.1 = u then
        gates.foldl (fun a g => a.setDefault (g, e.1.2) e.2) acc else acc) a,
        x ∈ d ∨ (x.1.1 ∈ gates ∧ ((u, x.1.2), x.2) ∈ d ∧ ∀ w, (x.1, w) ∉ d) := by
    intro l
    induction l with
    | nil => intro a _ _ h x hx; exact h x hx
    | cons y ys ih =>
      intro a hl hd ha x hx
      simp only [List.foldl_cons] at hx
      refine ih _ (fun z hz => hl z (by simp [hz])) ?_ ?_ x hx
      · intro z hz
        split
        · exact keep2 _ _ _ _ _ (hd z hz)
        · exact hd z hz
      · intro z hz
        split at hz
        · rename_i hu
          rcases inner _ _ _ _ _ hz with h | ⟨h1, h2, h3, h4⟩
          · exact ha z h
          · right
            refine ⟨h1, ?_, fun w hw => h4 w (hd _ hw)⟩
            have hy := hl y (by simp)
            rw [h2, h3, ← hu]; exact hy
        · exact ha z hz
  exact main d d (fun x hx => hx) (fun x hx => hx) (fun x hx => Or.inl hx) e h

example : addSpecialCases [(("p", 1), 7), (("z", 1), 3)] =
    [(("p", 1), 7), (("z", 1), 3), (("s", 1), 7), (("sdg", 1), 7), (("t", 1), 7), (("tdg", 1), 7)] := by decide

end QCEC.Props
