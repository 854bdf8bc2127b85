import Mathlib.Tactic.ByContra
import Verif.Model.Enums
/-!
# C28, C29: string conversions of the public enumerations
-/
namespace QCEC.Props
open QCEC

/-! ## Specification tables (what the documentation of the options lists) -/

/-- Every accepted spelling of a criterion (name, plus the numeric alias accepted by the parser). -/
def criterionSpellings : Criterion → List String
  | .notEquivalent => ["not_equivalent", "0"]
  | .equivalent => ["equivalent", "1"]
  | .probablyEquivalent => ["probably_equivalent", "2"]
  | .equivalentUpToGlobalPhase => ["equivalent_up_to_global_phase", "3"]
  | .equivalentUpToPhase => ["equivalent_up_to_phase", "4"]
  | .noInformation => ["no_information", "5"]
  | .probablyNotEquivalent => ["probably_not_equivalent", "6"]

def schemeSpellings : SchemeType → List String
  | .sequential => ["sequential", "0", "reference"]
  | .oneToOne => ["one_to_one", "1", "naive"]
  | .lookahead => ["lookahead", "2"]
  | .gateCost => ["gate_cost", "3", "compilation_flow"]
  | .proportional => ["proportional", "4"]

def stateTypeSpellings : StateType → List String
  | .computationalBasis => ["computational_basis", "0", "classical"]
  | .random1QBasis => ["random_1Q_basis", "1", "local_quantum"]
  | .stabilizer => ["stabilizer", "2", "global_quantum"]

theorem Criterion.mem_all (c : Criterion) : c ∈ Criterion.all := by cases c <;> decide
theorem SchemeType.mem_all (c : SchemeType) : c ∈ SchemeType.all := by cases c <;> decide
theorem StateType.mem_all (c : StateType) : c ∈ StateType.all := by cases c <;> decide

/-! ## C28 -/

/-- C28 (round trip): the text printed for a criterion parses back to it. -/
theorem criterion_roundtrip (c : Criterion) : Criterion.fromStr c.toStr = c := by
  cases c <;> decide

theorem scheme_roundtrip (c : SchemeType) : SchemeType.fromStr c.toStr = c := by
  cases c <;> decide

theorem stateType_roundtrip (c : StateType) : StateType.fromStr c.toStr = c := by
  cases c <;> decide

/-- C28: different values print differently. -/
theorem criterion_toStr_injective (c d : Criterion) (h : c.toStr = d.toStr) : c = d := by
  rw [← criterion_roundtrip c, h, criterion_roundtrip]

theorem scheme_toStr_injective (c d : SchemeType) (h : c.toStr = d.toStr) : c = d := by
  rw [← scheme_roundtrip c, h, scheme_roundtrip]

theorem stateType_toStr_injective (c d : StateType) (h : c.toStr = d.toStr) : c = d := by
  rw [← stateType_roundtrip c, h, stateType_roundtrip]

/-- C28 (exact meaning of the parser on *every* string): it returns `c` iff the string is one of the spellings
of `c`, or `c` is the default `no_information` and the string is not a spelling of anything. -/
theorem criterion_parse_exact (s : String) (c : Criterion) :
    Criterion.fromStr s = c ↔
      s ∈ criterionSpellings c ∨ (c = .noInformation ∧ ∀ d, s ∉ criterionSpellings d) := by
  constructor
  · rintro rfl
    by_cases h : ∃ d, s ∈ criterionSpellings d
    · obtain ⟨d, hd⟩ := h
      left
      cases d <;> simp [criterionSpellings] at hd <;> rcases hd with rfl | rfl <;> decide
    · right
      have h' : ∀ d, s ∉ criterionSpellings d := fun d hd => h ⟨d, hd⟩
      refine ⟨?_, h'⟩
      have h0 := h' .notEquivalent
      have h1 := h' .equivalent
      have h2 := h' .probablyEquivalent
      have h3 := h' .equivalentUpToGlobalPhase
      have h4 := h' .equivalentUpToPhase
      have h6 := h' .probablyNotEquivalent
      simp [criterionSpellings] at h0 h1 h2 h3 h4 h6
      simp [Criterion.fromStr, h0, h1, h2, h3, h4, h6]
  · rintro (h | ⟨rfl, h⟩)
    · cases c <;> simp [criterionSpellings] at h <;> rcases h with rfl | rfl <;> decide
    · have h0 := h .notEquivalent
      have h1 := h .equivalent
      have h2 := h .probablyEquivalent
      have h3 := h .equivalentUpToGlobalPhase
      have h4 := h .equivalentUpToPhase
      have h6 := h .probablyNotEquivalent
      simp [criterionSpellings] at h0 h1 h2 h3 h4 h6
      simp [Criterion.fromStr, h0, h1, h2, h3, h4, h6]

/-- C28: exact meaning of `applicationSchemeFromString` on every string (default: proportional). -/
theorem scheme_parse_exact (s : String) (c : SchemeType) :
    SchemeType.fromStr s = c ↔
      s ∈ schemeSpellings c ∨ (c = .proportional ∧ ∀ d, s ∉ schemeSpellings d) := by
  have key : ∀ d, s ∈ schemeSpellings d → SchemeType.fromStr s = d := by
    intro d hd
    cases d <;> simp [schemeSpellings] at hd
    all_goals first
      | (rcases hd with rfl | rfl | rfl <;> decide)
      | (rcases hd with rfl | rfl <;> decide)
  have dflt : (∀ d, s ∉ schemeSpellings d) → SchemeType.fromStr s = .proportional := by
    intro h
    have h0 := h .sequential
    have h1 := h .oneToOne
    have h2 := h .lookahead
    have h3 := h .gateCost
    simp [schemeSpellings] at h0 h1 h2 h3
    simp [SchemeType.fromStr, h0, h1, h2, h3]
  constructor
  · rintro rfl
    by_cases h : ∃ d, s ∈ schemeSpellings d
    · obtain ⟨d, hd⟩ := h
      left; rw [key d hd]; exact hd
    · have h' : ∀ d, s ∉ schemeSpellings d := fun d hd => h ⟨d, hd⟩
      exact Or.inr ⟨dflt h', h'⟩
  · rintro (h | ⟨rfl, h⟩)
    · exact key c h
    · exact dflt h

/-- C28: exact meaning of `stateTypeFromString` on every string (default: computational basis). -/
theorem stateType_parse_exact (s : String) (c : StateType) :
    StateType.fromStr s = c ↔
      s ∈ stateTypeSpellings c ∨ (c = .computationalBasis ∧ ∀ d, s ∉ stateTypeSpellings d) := by
  have key : ∀ d, s ∈ stateTypeSpellings d → StateType.fromStr s = d := by
    intro d hd
    cases d <;> simp [stateTypeSpellings] at hd <;> rcases hd with rfl | rfl | rfl <;> decide
  have dflt : (∀ d, s ∉ stateTypeSpellings d) → StateType.fromStr s = .computationalBasis := by
    intro h
    have h1 := h .random1QBasis
    have h2 := h .stabilizer
    simp [stateTypeSpellings] at h1 h2
    simp [StateType.fromStr, h1, h2]
  constructor
  · rintro rfl
    by_cases h : ∃ d, s ∈ stateTypeSpellings d
    · obtain ⟨d, hd⟩ := h
      left; rw [key d hd]; exact hd
    · have h' : ∀ d, s ∉ stateTypeSpellings d := fun d hd => h ⟨d, hd⟩
      exact Or.inr ⟨dflt h', h'⟩
  · rintro (h | ⟨rfl, h⟩)
    · exact key c h
    · exact dflt h

/-- C28: of the other names under which the documentation of the Python enumeration refers to the state types (`src/python/bindings.cpp:119-129`:
"classical", "local_random", "global_random") only the first is understood; the others silently select computational basis states. -/
theorem stateType_documented_names : StateType.fromStr "classical" = .computationalBasis ∧
    StateType.fromStr "local_random" = .computationalBasis ∧ StateType.fromStr "global_random" = .computationalBasis ∧
    StateType.random1QBasis ≠ .computationalBasis ∧ StateType.stabilizer ≠ .computationalBasis := by decide

/-- Reading one white-space free, non-empty word that is followed by the end of input or white space. -/
theorem readToken_word (pre w post : List Char) (hpre : ∀ c ∈ pre, isSpaceC c = true)
    (hw : ∀ c ∈ w, isSpaceC c = false) (hne : w ≠ [])
    (hpost : post = [] ∨ ∃ c r, post = c :: r ∧ isSpaceC c = true) :
    readToken (pre ++ w ++ post) = (w, post) := by
  unfold readToken
  have h1 : (pre ++ w ++ post).dropWhile isSpaceC = w ++ post := by
    induction pre with
    | nil =>
      cases w with
      | nil => exact absurd rfl hne
      | cons a t => simp [List.dropWhile, hw a (by simp)]
    | cons a t ih =>
      have := hpre a (by simp)
      simp only [List.cons_append, List.dropWhile, this]
      simpa using ih (fun c hc => hpre c (by simp [hc]))
  rw [h1]
  have h2 : ∀ v : List Char, (∀ c ∈ v, isSpaceC c = false) →
      ((v ++ post).takeWhile (fun c => !isSpaceC c), (v ++ post).dropWhile (fun c => !isSpaceC c)) = (v, post) := by
    intro v hv
    induction v with
    | nil =>
      rcases hpost with rfl | ⟨c, r, rfl, hc⟩
      · rfl
      · simp [List.takeWhile, List.dropWhile, hc]
    | cons a t ih =>
      have ha := hv a (by simp)
      have := ih (fun c hc => hv c (by simp [hc]))
      simp only [Prod.mk.injEq] at this
      simp [List.takeWhile, List.dropWhile, ha, this.1, this.2]
  exact h2 w hw

/-- C28: what is written with `<<` is read back with `>>`, also in the middle of other white-space separated
text, and the stream is positioned right behind it. -/
theorem criterion_stream_roundtrip (c old : Criterion) (pre post : List Char)
    (hpre : ∀ x ∈ pre, isSpaceC x = true)
    (hpost : post = [] ∨ ∃ x r, post = x :: r ∧ isSpaceC x = true) :
    readEnum Criterion.fromStr { rest := pre ++ c.toStr.toList ++ post } old = (c, { rest := post }) := by
  have hw : ∀ x ∈ c.toStr.toList, isSpaceC x = false := by cases c <;> decide
  have hne : c.toStr.toList ≠ [] := by cases c <;> decide
  have hr := readToken_word pre _ post hpre hw hne hpost
  simp only [readEnum, hr, Bool.false_eq_true, if_false]
  rw [if_neg hne]; simp [criterion_roundtrip]

theorem scheme_stream_roundtrip (c old : SchemeType) (pre post : List Char)
    (hpre : ∀ x ∈ pre, isSpaceC x = true)
    (hpost : post = [] ∨ ∃ x r, post = x :: r ∧ isSpaceC x = true) :
    readEnum SchemeType.fromStr { rest := pre ++ c.toStr.toList ++ post } old = (c, { rest := post }) := by
  have hw : ∀ x ∈ c.toStr.toList, isSpaceC x = false := by cases c <;> decide
  have hne : c.toStr.toList ≠ [] := by cases c <;> decide
  have hr := readToken_word pre _ post hpre hw hne hpost
  simp only [readEnum, hr, Bool.false_eq_true, if_false]
  rw [if_neg hne]; simp [scheme_roundtrip]

theorem stateType_stream_roundtrip (c old : StateType) (pre post : List Char)
    (hpre : ∀ x ∈ pre, isSpaceC x = true)
    (hpost : post = [] ∨ ∃ x r, post = x :: r ∧ isSpaceC x = true) :
    readEnum StateType.fromStr { rest := pre ++ c.toStr.toList ++ post } old = (c, { rest := post }) := by
  have hw : ∀ x ∈ c.toStr.toList, isSpaceC x = false := by cases c <;> decide
  have hne : c.toStr.toList ≠ [] := by cases c <;> decide
  have hr := readToken_word pre _ post hpre hw hne hpost
  simp only [readEnum, hr, Bool.false_eq_true, if_false]
  rw [if_neg hne]; simp [stateType_roundtrip]

/-- C28: reading from white-space-only (or empty) input sets the failbit and leaves the variable alone. -/
theorem readEnum_blank {α : Type} (f : String → α) (old : α) (ws : List Char)
    (h : ∀ x ∈ ws, isSpaceC x = true) :
    readEnum f { rest := ws } old = (old, { rest := [], fail := true }) := by
  have : ws.dropWhile isSpaceC = [] := by
    clear f
    induction ws with
    | nil => rfl
    | cons a t ih => simp [List.dropWhile, h a (by simp)]; exact ih (fun x hx => h x (by simp [hx]))
  simp [readEnum, readToken, this]

/-- C28: nothing is read from a stream that has failed; the variable keeps its value and the stream stays failed. -/
theorem readEnum_failed {α : Type} (f : String → α) (old : α) (cs : List Char) :
    readEnum f { rest := cs, fail := true } old = (old, { rest := cs, fail := true }) := by
  simp [readEnum]

/-- C28: after a successful read the stream has not failed; if it has failed the variable is unchanged. -/
theorem readEnum_fail_iff {α : Type} (f : String → α) (old : α) (is : IStream) :
    ((readEnum f is old).2.fail = true ↔ is.fail = true ∨ ∀ x ∈ is.rest, isSpaceC x = true) ∧
    ((readEnum f is old).2.fail = true → (readEnum f is old).1 = old) := by
  obtain ⟨cs, b⟩ := is
  cases b with
  | true => simp [readEnum]
  | false =>
    by_cases h : ∀ x ∈ cs, isSpaceC x = true
    · rw [readEnum_blank f old cs h]
      simpa using h
    · have hd : cs.dropWhile isSpaceC ≠ [] := fun h0 => h fun x hx => by
        by_contra hn
        have : ∀ l : List Char, x ∈ l → l.dropWhile isSpaceC ≠ [] := by
          intro l
          induction l with
          | nil => intro h; cases h
          | cons a t ih =>
            intro hx
            rcases List.mem_cons.1 hx with rfl | hx
            · simp [List.dropWhile, Bool.eq_false_iff.2 hn]
            · simp only [List.dropWhile]
              split
              · exact ih hx
              · simp
        exact this cs hx h0
      have ht : (cs.dropWhile isSpaceC).takeWhile (fun c => !isSpaceC c) ≠ [] := by
        have hh := List.head_dropWhile_not isSpaceC hd
        cases e : cs.dropWhile isSpaceC with
        | nil => exact absurd e hd
        | cons a t =>
          simp only [e, List.head_cons] at hh
          simp [List.takeWhile, hh]
      simp only [readEnum, readToken, Bool.false_eq_true, if_false, if_neg ht]
      simpa using h

/-- What separates words: space, tab, line feed, vertical tab, form feed and carriage return (`std::isspace` in the C locale). -/
theorem isSpaceC_iff (c : Char) : isSpaceC c = true ↔ c.toNat = 32 ∨ (9 ≤ c.toNat ∧ c.toNat ≤ 13) := by
  have key : ∀ d : Char, c = d ↔ c.toNat = d.toNat := fun d => ⟨fun h => h ▸ rfl, fun h => Char.toNat_inj.1 h⟩
  simp only [isSpaceC, Bool.or_eq_true, decide_eq_true_eq, key]
  have h1 : ' '.toNat = 32 := rfl
  have h2 : '\t'.toNat = 9 := rfl
  have h3 : '\n'.toNat = 10 := rfl
  have h4 : '\x0b'.toNat = 11 := rfl
  have h5 : '\x0c'.toNat = 12 := rfl
  have h6 : '\r'.toNat = 13 := rfl
  rw [h1, h2, h3, h4, h5, h6]
  omega

-- non-vacuity: `"  equivalent x"` is read as `equivalent`, leaving `" x"`
example : readEnum Criterion.fromStr { rest := "  equivalent x".toList } .notEquivalent
    = (.equivalent, { rest := " x".toList }) := by decide
example : readEnum SchemeType.fromStr { rest := " \n".toList } .lookahead
    = (.lookahead, { rest := [], fail := true }) := by decide

/-! ## C29: numeric aliases -/

/-- C29: for application schemes the decimal number of the enumerator is accepted as its name. -/
theorem scheme_numeric_alias (c : SchemeType) : SchemeType.fromStr (toString c.value) = c := by
  cases c <;> decide

/-- C29: same for state types. -/
theorem stateType_numeric_alias (c : StateType) : StateType.fromStr (toString c.value) = c := by
  cases c <;> decide

/-- The numeric-alias property for criteria, as a user would expect it from the enum (and the Python binding). -/
def CriterionNumericAlias : Prop := ∀ c : Criterion, Criterion.fromStr (toString c.value) = c

/-- C29 is false for criteria: `"2"` is the number of `NoInformation` but parses as `ProbablyEquivalent`. -/
theorem criterion_numeric_alias_false : ¬ CriterionNumericAlias := by
  intro h; exact absurd (h .noInformation) (by decide)

/-- C29: exactly three criteria are spelled correctly by their number; the other four are confused. -/
theorem criterion_numeric_alias_partial (c : Criterion) :
    Criterion.fromStr (toString c.value) = c ↔
      c = .notEquivalent ∨ c = .equivalent ∨ c = .probablyNotEquivalent := by
  cases c <;> decide

/-- C29: the danger is real: the number of `NoInformation`, of which nothing is known, reads as a positive verdict,
and the number of `EquivalentUpToPhase` reads as `NoInformation`. -/
theorem criterion_numeric_alias_confusion :
    Criterion.fromStr (toString (Criterion.value .noInformation)) = .probablyEquivalent ∧
    Criterion.fromStr (toString (Criterion.value .equivalentUpToPhase)) = .noInformation := by decide

end QCEC.Props
