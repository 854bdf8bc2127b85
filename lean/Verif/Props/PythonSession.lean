import Verif.Spec.PythonSession
import Verif.Props.Kwargs
import Verif.Props.Parameterized
import Mathlib.Tactic.ByContra
/-!
# Properties: Python programs that share configuration objects between calls (C80)
-/
namespace QCEC.Props
open QCEC QCEC.Py QCEC.PySession QCEC.Spec.Py QCEC.Spec.PySession

variable {V C : Type} {conv : Kind → V → Option FieldVal} {default : Configuration}

/-! ## Keyword arguments, also when one is refused -/

theorem reaches_cons {k : String} {v : V} {r : List (String × V)} {o : Opt} {f : FieldVal} (ha : Accepted conv (k, v)) :
    Reaches conv ((k, v) :: r) o f ↔ ((k, o) ∈ documented ∧ conv o.kind v = some f) ∨ Reaches conv r o f := by
  constructor
  · rintro ⟨pre, key, u, post, he, hp, hd, hc⟩
    cases pre with
    | nil =>
      simp only [List.nil_append, List.cons.injEq, Prod.mk.injEq] at he
      obtain ⟨⟨rfl, rfl⟩, rfl⟩ := he
      exact Or.inl ⟨hd, hc⟩
    | cons p pre =>
      simp only [List.cons_append, List.cons.injEq] at he
      exact Or.inr ⟨pre, key, u, post, he.2, fun e h => hp e (List.mem_cons_of_mem _ h), hd, hc⟩
  · rintro (⟨hd, hc⟩ | ⟨pre, key, u, post, he, hp, hd, hc⟩)
    · exact ⟨[], k, v, r, rfl, by simp, hd, hc⟩
    · refine ⟨(k, v) :: pre, key, u, post, by rw [he]; rfl, ?_, hd, hc⟩
      intro e h
      rcases List.mem_cons.1 h with rfl | h
      · exact ha
      · exact hp e h

theorem reaches_refused {k : String} {v : V} {r : List (String × V)} {o : Opt} {f : FieldVal} (ha : ¬ Accepted conv (k, v)) :
    ¬ Reaches conv ((k, v) :: r) o f := by
  rintro ⟨pre, key, u, post, he, hp, hd, hc⟩
  cases pre with
  | nil =>
    simp only [List.nil_append, List.cons.injEq, Prod.mk.injEq] at he
    obtain ⟨⟨rfl, rfl⟩, rfl⟩ := he
    exact ha ⟨o, hd, by rw [hc]; rfl⟩
  | cons p pre =>
    simp only [List.cons_append, List.cons.injEq] at he
    exact ha (he.1 ▸ hp p List.mem_cons_self)

theorem documented_key {k k' : String} {o : Opt} (h : (k, o) ∈ documented) (h' : (k', o) ∈ documented) : k = k' := by
  obtain ⟨x, _, hx⟩ := option_has_keyword o
  rw [hx k ((keyword_iff_documented k o).2 h), hx k' ((keyword_iff_documented k' o).2 h')]

theorem documented_option {k : String} {o o' : Opt} (h : (k, o) ∈ documented) (h' : (k, o') ∈ documented) : o = o' := by
  have a := (keyword_iff_documented k o).2 h
  rw [(keyword_iff_documented k o').2 h'] at a
  exact (Option.some.inj a).symm

theorem reaches_key {kwargs : List (String × V)} {o : Opt} {f : FieldVal} (h : Reaches conv kwargs o f) :
    ∃ k, (k, o) ∈ documented ∧ k ∈ kwargs.map Prod.fst := by
  obtain ⟨pre, key, u, post, rfl, _, hd, _⟩ := h
  exact ⟨key, hd, by simp⟩

theorem augment_reaches (ht : Typed conv) {kwargs : List (String × V)} (hk : (kwargs.map Prod.fst).Nodup) {c c' : Configuration} {e : Option Py.Err}
    (h : augment conv c kwargs = (c', e)) :
    (∀ o f, Reaches conv kwargs o f → read c' o = f) ∧ (∀ o, (¬ ∃ f, Reaches conv kwargs o f) → read c' o = read c o) ∧
      (e = none ↔ ∀ x ∈ kwargs, Accepted conv x) := by
  induction kwargs generalizing c with
  | nil =>
    simp only [augment, Prod.mk.injEq] at h
    obtain ⟨rfl, rfl⟩ := h
    refine ⟨fun o f hr => ?_, fun _ _ => rfl, by simp⟩
    obtain ⟨k, _, hm⟩ := reaches_key hr
    simp at hm
  | cons x r ih =>
    obtain ⟨k, v⟩ := x
    simp only [List.map_cons, List.nodup_cons] at hk
    simp only [augment] at h
    have bad : ¬ Accepted conv (k, v) → (c', e).1 = c → (c', e).2 ≠ none → (∀ o f, Reaches conv ((k, v) :: r) o f → read c' o = f) ∧
        (∀ o, (¬ ∃ f, Reaches conv ((k, v) :: r) o f) → read c' o = read c o) ∧ (e = none ↔ ∀ x ∈ (k, v) :: r, Accepted conv x) := by
      intro hb h1 h2
      simp only at h1 h2
      subst h1
      exact ⟨fun o f hr => absurd hr (reaches_refused hb), fun _ _ => rfl,
        ⟨fun h => absurd h h2, fun h => absurd (h (k, v) List.mem_cons_self) hb⟩⟩
    cases hf : findAttr k with
    | none =>
      rw [hf] at h
      simp only [Prod.mk.injEq] at h
      refine bad ?_ h.1.symm (by simp [← h.2])
      rintro ⟨o, hd, _⟩
      rw [(keyword_iff_documented k o).2 hd] at hf
      exact absurd hf (by simp)
    | some o =>
      have hd := (keyword_iff_documented k o).1 hf
      rw [hf] at h
      simp only at h
      cases hs : setAttr conv c o v with
      | none =>
        rw [hs] at h
        simp only [Prod.mk.injEq] at h
        refine bad ?_ h.1.symm (by simp [← h.2])
        rintro ⟨o', hd', hc⟩
        cases documented_option hd hd'
        obtain ⟨f, hc⟩ := Option.isSome_iff_exists.1 hc
        obtain ⟨c2, h2⟩ := setField_defined c (ht _ _ _ hc)
        rw [setAttr, hc, Option.bind_some, h2] at hs
        exact absurd hs (by simp)
      | some c1 =>
        rw [hs] at h
        simp only at h
        obtain ⟨f0, hf0, hset⟩ := Option.bind_eq_some_iff.1 hs
        have hacc : Accepted conv (k, v) := ⟨o, hd, by rw [hf0]; rfl⟩
        obtain ⟨i1, i2, i3⟩ := ih hk.2 h
        have hno : ¬ ∃ f, Reaches conv r o f := by
          rintro ⟨f, hr⟩
          obtain ⟨k', hd', hm⟩ := reaches_key hr
          rw [documented_key hd' hd] at hm
          exact hk.1 hm
        refine ⟨?_, ?_, ?_⟩
        · intro o' f hr
          rcases (reaches_cons hacc).1 hr with ⟨hd', hc⟩ | hr
          · cases documented_option hd hd'
            rw [i2 _ hno, setField_spec hset, if_pos rfl]
            rw [hf0] at hc
            exact Option.some.inj hc
          · exact i1 o' f hr
        · intro o' hn
          have hne : o' ≠ o := by
            rintro rfl
            exact hn ⟨f0, (reaches_cons hacc).2 (Or.inl ⟨hd, hf0⟩)⟩
          rw [i2 o' fun ⟨f, hr⟩ => hn ⟨f, (reaches_cons hacc).2 (Or.inr hr)⟩, setField_spec hset, if_neg hne]
        · rw [i3]
          constructor
          · intro ha x hx
            rcases List.mem_cons.1 hx with rfl | hx
            · exact hacc
            · exact ha x hx
          · intro ha x hx
            exact ha x (List.mem_cons_of_mem _ hx)

/-! ## One call -/

theorem store_get {s : Session} {k : Option Nat} {c : Configuration} {i : Nat} {c0 : Configuration} (h : s.objs[i]? = some c0) :
    (s.store k c).objs[i]? = some (if k = some i then c else c0) := by
  cases k with
  | none => simpa [Session.store] using h
  | some k =>
    by_cases hk : k = i
    · subst hk
      obtain ⟨hlt, _⟩ := List.getElem?_eq_some_iff.1 h
      simp [Session.store, hlt]
    · simp [Session.store, List.getElem?_set_ne hk, hk, h]

theorem compilation_reaches (ht : Typed conv) {kwargs : List (String × V)} (hk : (kwargs.map Prod.fst).Nodup) {g : Option Configuration}
    {dir level : String} {mode : AncillaMode} {c' : Configuration} {e : Option Py.Err}
    (h : compilationConfig conv default g kwargs dir level mode = (c', e)) :
    (e = none ↔ ∀ x ∈ kwargs, Accepted conv x) ∧
    (∀ o f, Reaches conv kwargs o f → (e = none → ¬ Reserved o) → read c' o = f) ∧
    (∀ o, (¬ ∃ f, Reaches conv kwargs o f) → (e = none → ¬ Reserved o) → read c' o = read (g.getD default) o) ∧
    (e = none → (∀ o, o = .constructionScheme ∨ o = .simulationScheme ∨ o = .alternatingScheme → read c' o = .scheme .gateCost) ∧
      read c' .profile = .str (dir ++ "qiskit_O" ++ level ++ "_" ++ mode.str ++ ".profile")) := by
  have h0 := h
  unfold compilationConfig at h
  split at h
  · rename_i c e' hc
    simp only [Prod.mk.injEq] at h
    obtain ⟨rfl, rfl⟩ := h
    obtain ⟨a1, a2, a3⟩ := augment_reaches ht hk hc
    exact ⟨a3, fun o f hr _ => a1 o f hr, fun o hn _ => a2 o hn, fun h => absurd h (by simp)⟩
  · rename_i c hc
    obtain ⟨a1, a2, a3⟩ := augment_reaches ht hk hc
    simp only [verifyConfig, Option.getD_some, augment, Prod.mk.injEq] at h
    obtain ⟨rfl, rfl⟩ := h
    have same : ∀ o : Opt, ¬ Reserved o →
        read { c with application := { c.application with constructionScheme := .gateCost, simulationScheme := .gateCost, alternatingScheme := .gateCost,
                                                          profile := dir ++ profileName level mode } } o = read c o := by
      intro o h
      cases o <;> first | rfl | simp [Reserved] at h
    obtain ⟨b1, b2, _⟩ := compilation_config hk h0
    exact ⟨a3, fun o f hr hn => (same o (hn rfl)).trans (a1 o f hr), fun o hr hn => (same o (hn rfl)).trans (a2 o hr), fun _ => ⟨b1, b2⟩⟩

/-- **C80.** What a call does to the options of the configuration objects: what it writes is there afterwards, everything else is unchanged.  This
includes calls that end with an exception. -/
theorem call_option (ht : Typed conv) {s s' : Session} {c : Call V} {out : Outcome} (hd : KeywordsDistinct c)
    (h : Step (C := C) conv default s c out s') {i : Nat} {c0 : Configuration} (hi : s.objs[i]? = some c0) :
    ∃ c1, s'.objs[i]? = some c1 ∧ (∀ o f, Writes conv c i o f → read c1 o = f) ∧
      (∀ o, (¬ ∃ f, Writes conv c i o f) → read c1 o = read c0 o) := by
  have hlt := (List.getElem?_eq_some_iff.1 hi).1
  have app : ∀ x : Configuration, (s.objs ++ [x])[i]? = some c0 := fun x => by rw [List.getElem?_append_left hlt, hi]
  have quiet : (∀ o f, ¬ Writes conv c i o f) → ∀ s1 : Session, s1.objs[i]? = some c0 → ∃ c1, s1.objs[i]? = some c1 ∧
      (∀ o f, Writes conv c i o f → read c1 o = f) ∧ (∀ o, (¬ ∃ f, Writes conv c i o f) → read c1 o = read c0 o) :=
    fun hw s1 h1 => ⟨c0, h1, fun o f hf => absurd hf (hw o f), fun _ _ => rfl⟩
  have verifyCase : ∀ (k : Option Nat) (kwargs : List (String × V)) (i₁ i₂ : Param.Input) (g : Option Configuration) (c' : Configuration)
      (e : Option Py.Err), s.given k = some g → (kwargs.map Prod.fst).Nodup → verifyConfig conv default g kwargs = (c', e) →
      ∃ c1, (s.store k c').objs[i]? = some c1 ∧ (∀ o f, Writes conv (.verify k kwargs i₁ i₂) i o f → read c1 o = f) ∧
        (∀ o, (¬ ∃ f, Writes conv (.verify k kwargs i₁ i₂) i o f) → read c1 o = read c0 o) := by
    intro k kwargs i₁ i₂ g c' e hg hd hc
    refine ⟨_, store_get hi, ?_⟩
    by_cases hk : k = some i
    · subst hk
      simp only [Session.given, hi, Option.map_some, Option.some.injEq] at hg
      subst hg
      obtain ⟨a1, a2, _⟩ := augment_reaches ht hd hc
      rw [if_pos rfl]
      refine ⟨fun o f hw => ?_, fun o hn => a2 o fun ⟨f, hr⟩ => hn ⟨f, .verify hr⟩⟩
      cases hw with
      | verify hr => exact a1 o f hr
    · rw [if_neg hk]
      exact ⟨fun o f hw => by cases hw; exact absurd rfl hk, fun _ _ => rfl⟩
  have compileCase : ∀ (k : Option Nat) (kwargs : List (String × V)) (dir level : String) (mode : AncillaMode) (i₁ i₂ : Param.Input)
      (g : Option Configuration) (c' : Configuration) (e : Option Py.Err), s.given k = some g → (kwargs.map Prod.fst).Nodup →
      compilationConfig conv default g kwargs dir level mode = (c', e) →
      ∃ c1, (s.store k c').objs[i]? = some c1 ∧ (∀ o f, Writes conv (.compile k kwargs dir level mode i₁ i₂) i o f → read c1 o = f) ∧
        (∀ o, (¬ ∃ f, Writes conv (.compile k kwargs dir level mode i₁ i₂) i o f) → read c1 o = read c0 o) := by
    intro k kwargs dir level mode i₁ i₂ g c' e hg hd hc
    refine ⟨_, store_get hi, ?_⟩
    by_cases hk : k = some i
    · subst hk
      simp only [Session.given, hi, Option.map_some, Option.some.injEq] at hg
      subst hg
      obtain ⟨a0, a1, a2, a3⟩ := compilation_reaches ht hd hc
      rw [if_pos rfl]
      refine ⟨fun o f hw => ?_, fun o hn => ?_⟩
      · cases hw with
        | keyword hr hn => exact a1 o f hr fun e => hn (a0.1 e)
        | scheme ha ho => exact (a3 (a0.2 ha)).1 o ho
        | profile ha => exact (a3 (a0.2 ha)).2
      · have hres : (∀ x ∈ kwargs, Accepted conv x) → ¬ Reserved o := by
          rintro ha (rfl | rfl | rfl | rfl)
          · exact hn ⟨_, .scheme ha (Or.inl rfl)⟩
          · exact hn ⟨_, .scheme ha (Or.inr (Or.inl rfl))⟩
          · exact hn ⟨_, .scheme ha (Or.inr (Or.inr rfl))⟩
          · exact hn ⟨_, .profile ha⟩
        exact a2 o (fun ⟨f, hr⟩ => hn ⟨f, .keyword hr hres⟩) fun e => hres (a0.1 e)
    · rw [if_neg hk]
      exact ⟨fun o f hw => by cases hw <;> exact absurd rfl hk, fun _ _ => rfl⟩
  cases h with
  | new => exact quiet (fun o f hw => by cases hw) _ (app _)
  | assign hc ha =>
    rename_i k cc o v c'
    obtain ⟨f0, hf0, hset⟩ := Option.bind_eq_some_iff.1 ha
    by_cases hk : k = i
    · subst hk
      rw [hi] at hc
      cases hc
      refine ⟨c', by simp [hlt], ?_, ?_⟩
      · intro o' f hw
        cases hw with
        | assign hcv =>
          rw [setField_spec hset, if_pos rfl]
          rw [hf0] at hcv
          exact Option.some.inj hcv
      · intro o' hn
        rw [setField_spec hset, if_neg]
        rintro rfl
        exact hn ⟨f0, .assign hf0⟩
    · refine quiet (fun o f hw => by cases hw; exact hk rfl) _ ?_
      simp [List.getElem?_set_ne hk, hi]
  | assignRefused hc ha =>
    refine quiet (fun o f hw => ?_) _ hi
    cases hw with
    | assign hcv =>
      rw [hi] at hc
      cases hc
      obtain ⟨c2, h2⟩ := setField_defined c0 (ht _ _ _ hcv)
      rw [setAttr, hcv, Option.bind_some, h2] at ha
      exact absurd ha (by simp)
  | verify w hg hc => exact verifyCase _ _ _ _ _ _ _ hg hd hc
  | verifyRefused hg hc => exact verifyCase _ _ _ _ _ _ _ hg hd hc
  | compile w hg hc => exact compileCase _ _ _ _ _ _ _ _ _ _ hg hd hc
  | compileRefused hg hc => exact compileCase _ _ _ _ _ _ _ _ _ _ hg hd hc
  | manager I make hg hm => exact quiet (fun o f hw => by cases hw) _ hi
  | managerThrows I make hg hm => exact quiet (fun o f hw => by cases hw) _ hi
  | setter hj => exact quiet (fun o f hw => by cases hw) _ hi
  | run c' hj => exact quiet (fun o f hw => by cases hw) _ hi
  | getConfiguration hj => exact quiet (fun o f hw => by cases hw) _ (app _)

/-! ## Histories -/

/-- **C80.** The value of an option after any sequence of calls is the one the last call that set it gave it; if none did, it is
unchanged.  This holds whatever the verdicts were and also if calls ended with exceptions. -/
theorem session_option (ht : Typed conv) {s s' : Session} {l : List (Call V × Outcome)} (hd : ∀ e ∈ l, KeywordsDistinct e.1)
    (h : Trace C conv default s l s') {i : Nat} {c0 : Configuration} (hi : s.objs[i]? = some c0) :
    ∃ c1, s'.objs[i]? = some c1 ∧ ∀ o,
      (∃ pre e post f, l = pre ++ e :: post ∧ Writes conv e.1 i o f ∧ (∀ e' ∈ post, ¬ ∃ f', Writes conv e'.1 i o f') ∧ read c1 o = f) ∨
      ((∀ e ∈ l, ¬ ∃ f, Writes conv e.1 i o f) ∧ read c1 o = read c0 o) := by
  induction h generalizing c0 with
  | nil s => exact ⟨c0, hi, fun o => Or.inr ⟨by simp, rfl⟩⟩
  | @cons s s1 s2 c out r hstep t ih =>
    obtain ⟨c1, h1, w1, n1⟩ := call_option ht (hd _ List.mem_cons_self) hstep hi
    obtain ⟨c2, h2, k2⟩ := ih (fun e he => hd e (List.mem_cons_of_mem _ he)) h1
    refine ⟨c2, h2, fun o => ?_⟩
    rcases k2 o with ⟨pre, e, post, f, rfl, hw, hp, hv⟩ | ⟨hn, hv⟩
    · exact Or.inl ⟨(c, out) :: pre, e, post, f, rfl, hw, hp, hv⟩
    · by_cases hw : ∃ f, Writes conv c i o f
      · obtain ⟨f, hw⟩ := hw
        exact Or.inl ⟨[], (c, out), r, f, rfl, hw, hn, hv.trans (w1 o f hw)⟩
      · refine Or.inr ⟨fun e he => ?_, hv.trans (n1 o hw)⟩
        rcases List.mem_cons.1 he with rfl | he
        · exact hw
        · exact hn e he

/-- The configuration object a call is given. -/
def passed : Call V → Option Nat
  | .assign k _ _ => some k
  | .verify k _ _ _ => k
  | .compile k _ _ _ _ _ _ => k
  | .manager k _ _ => k
  | _ => none

/-- The manager a call is made on. -/
def on : Call V → Option Nat
  | .setter j _ => some j
  | .run j => some j
  | _ => none

/-- **C80.** A call changes no configuration object but the one it is given, and constructing a manager does not change that one either: what
the constructor, the setters and `run()` do to the manager's configuration happens to a copy.  Conversely nothing but the calls on a manager
changes its configuration. -/
theorem session_isolated {s s' : Session} {c : Call V} {out : Outcome} (h : Step (C := C) conv default s c out s') :
    (∀ i, i < s.objs.length → passed c ≠ some i ∨ (∃ k i₁ i₂, c = .manager k i₁ i₂) → s'.objs[i]? = s.objs[i]?) ∧
    (∀ j, j < s.managers.length → on c ≠ some j → s'.managers[j]? = s.managers[j]?) := by
  have st : ∀ (k : Option Nat) (x : Configuration) (i : Nat), k ≠ some i → (s.store k x).objs[i]? = s.objs[i]? := by
    intro k x i hk
    cases k with
    | none => rfl
    | some k => simp only [Session.store]; rw [List.getElem?_set_ne (by simpa using hk)]
  have sm : ∀ (k : Option Nat) (x : Configuration), (s.store k x).managers = s.managers := by intro k x; cases k <;> rfl
  have no : ∀ {P : Prop} {c : Call V}, (∀ k i₁ i₂, c ≠ .manager k i₁ i₂) → P ∨ (∃ k i₁ i₂, c = .manager k i₁ i₂) → P := by
    rintro P c hn (h | ⟨k, i₁, i₂, rfl⟩)
    · exact h
    · exact absurd rfl (hn k i₁ i₂)
  cases h with
  | new => exact ⟨fun i hi _ => by rw [List.getElem?_append_left hi], fun _ _ _ => rfl⟩
  | assign hc ha =>
    refine ⟨fun i hi hp => ?_, fun _ _ _ => rfl⟩
    have := no (by simp) hp
    simp only [passed, ne_eq, Option.some.injEq] at this
    simp only
    rw [List.getElem?_set_ne this]
  | assignRefused hc ha => exact ⟨fun _ _ _ => rfl, fun _ _ _ => rfl⟩
  | verify w hg hc => exact ⟨fun i hi hp => st _ _ i (no (by simp) hp), fun j _ _ => by rw [sm]⟩
  | verifyRefused hg hc => exact ⟨fun i hi hp => st _ _ i (no (by simp) hp), fun j _ _ => by rw [sm]⟩
  | compile w hg hc => exact ⟨fun i hi hp => st _ _ i (no (by simp) hp), fun j _ _ => by rw [sm]⟩
  | compileRefused hg hc => exact ⟨fun i hi hp => st _ _ i (no (by simp) hp), fun j _ _ => by rw [sm]⟩
  | manager I make hg hm => exact ⟨fun _ _ _ => rfl, fun j hj _ => by rw [List.getElem?_append_left hj]⟩
  | managerThrows I make hg hm => exact ⟨fun _ _ _ => rfl, fun _ _ _ => rfl⟩
  | setter hj =>
    refine ⟨fun _ _ _ => rfl, fun j hj ho => ?_⟩
    simp only [on, ne_eq, Option.some.injEq] at ho
    simp only
    rw [List.getElem?_set_ne ho]
  | run c' hj =>
    refine ⟨fun _ _ _ => rfl, fun j hj ho => ?_⟩
    simp only [on, ne_eq, Option.some.injEq] at ho
    simp only
    rw [List.getElem?_set_ne ho]
  | getConfiguration hj => exact ⟨fun i hi _ => by rw [List.getElem?_append_left hi], fun _ _ _ => rfl⟩

/-- **C80.** The configuration a verification works with: that of the object, as it is after the call; without an object it depends on nothing
but the keywords, so earlier calls have no influence on it. -/
theorem session_used (ht : Typed conv) {s s' : Session} {k : Option Nat} {kwargs : List (String × V)} {i₁ i₂ : Param.Input} {cfg : Configuration}
    {r : Except Param.Err Param.Res} (hd : (kwargs.map Prod.fst).Nodup)
    (h : Step (C := C) conv default s (.verify k kwargs i₁ i₂) (.result cfg r) s') :
    (∃ w, r = Param.verify w cfg i₁ i₂) ∧ (∀ x ∈ kwargs, Accepted conv x) ∧
    (∀ i, k = some i → s'.objs[i]? = some cfg) ∧
    (k = none → s' = s ∧ (∀ o f, Reaches conv kwargs o f → read cfg o = f) ∧ (∀ o, (¬ ∃ f, Reaches conv kwargs o f) → read cfg o = read default o) ∧
      cfg.application.costFunction = default.application.costFunction) := by
  cases h with
  | verify w hg hc =>
    rename_i g
    obtain ⟨a1, a2, a3⟩ := augment_reaches ht hd hc
    refine ⟨⟨w, rfl⟩, a3.1 rfl, ?_, ?_⟩
    · rintro i rfl
      have hs : ∃ c0, s.objs[i]? = some c0 := by
        cases hi : s.objs[i]? with
        | none => simp [Session.given, hi] at hg
        | some c0 => exact ⟨c0, rfl⟩
      obtain ⟨c0, hs⟩ := hs
      rw [store_get hs, if_pos rfl]
    · rintro rfl
      simp only [Session.given, Option.some.injEq] at hg
      subst hg
      exact ⟨rfl, a1, a2, (augment_spec hd hc).2.2⟩

/-- **C80.** Two verifications without a configuration object and with the same keywords work with the same configuration, at whatever points of
whatever programs they are made. -/
theorem session_fresh (ht : Typed conv) {s s' t t' : Session} {kwargs : List (String × V)} {i₁ i₂ j₁ j₂ : Param.Input} {cfg cfg' : Configuration}
    {r r' : Except Param.Err Param.Res} (hd : (kwargs.map Prod.fst).Nodup)
    (h : Step (C := C) conv default s (.verify none kwargs i₁ i₂) (.result cfg r) s')
    (h' : Step (C := C) conv default t (.verify none kwargs j₁ j₂) (.result cfg' r') t') : cfg = cfg' := by
  obtain ⟨_, _, _, a⟩ := session_used ht hd h
  obtain ⟨_, _, _, b⟩ := session_used ht hd h'
  obtain ⟨_, a1, a2, a3⟩ := a rfl
  obtain ⟨_, b1, b2, b3⟩ := b rfl
  refine config_ext (fun o => ?_) (a3.trans b3.symm)
  by_cases hr : ∃ f, Reaches conv kwargs o f
  · obtain ⟨f, hr⟩ := hr
    rw [a1 o f hr, b1 o f hr]
  · rw [a2 o hr, b2 o hr]

/-- **C80.** A keyword argument that is no option or has a value of the wrong type is refused, and nothing is verified then. -/
theorem session_refused (ht : Typed conv) {s s' : Session} {k : Option Nat} {kwargs : List (String × V)} {i₁ i₂ : Param.Input} {out : Outcome}
    (hd : (kwargs.map Prod.fst).Nodup) (h : Step (C := C) conv default s (.verify k kwargs i₁ i₂) out s') :
    ((∃ e, out = .refused e) ↔ ∃ x ∈ kwargs, ¬ Accepted conv x) ∧ ((∃ cfg r, out = .result cfg r) ↔ ∀ x ∈ kwargs, Accepted conv x) := by
  cases h with
  | verify w hg hc =>
    obtain ⟨_, _, a3⟩ := augment_reaches ht hd hc
    have hall := a3.1 rfl
    refine ⟨⟨by rintro ⟨e, h⟩; simp at h, ?_⟩, ⟨fun _ => hall, fun _ => ⟨_, _, rfl⟩⟩⟩
    rintro ⟨x, hx, hn⟩
    exact absurd (hall x hx) hn
  | verifyRefused hg hc =>
    obtain ⟨_, _, a3⟩ := augment_reaches ht hd hc
    have hall : ¬ ∀ x ∈ kwargs, Accepted conv x := fun h => absurd (a3.2 h) (by simp)
    refine ⟨⟨fun _ => ?_, fun _ => ⟨_, rfl⟩⟩, ⟨by rintro ⟨_, _, h⟩; simp at h, fun h => absurd h hall⟩⟩
    by_contra hn
    exact hall fun x hx => by_contra fun h => hn ⟨x, hx, h⟩

/-- **C80.** The circuits, the answers of the checkers and even whether they can be imported have no influence on the configuration objects: two
calls that differ in nothing else leave the same session. -/
theorem session_circuits_irrelevant {s s' s'' : Session} {k : Option Nat} {kwargs : List (String × V)} {dir level : String} {mode : AncillaMode}
    {i₁ i₂ j₁ j₂ : Param.Input} {o o' : Outcome} :
    (Step (C := C) conv default s (.verify k kwargs i₁ i₂) o s' → Step (C := C) conv default s (.verify k kwargs j₁ j₂) o' s'' → s' = s'') ∧
    (Step (C := C) conv default s (.compile k kwargs dir level mode i₁ i₂) o s' →
      Step (C := C) conv default s (.compile k kwargs dir level mode j₁ j₂) o' s'' → s' = s'') := by
  refine ⟨fun h h' => ?_, fun h h' => ?_⟩
  · cases h <;> cases h' <;> rename_i hg hc _ _ _ hg' hc' <;> (rw [hg] at hg'; cases hg'; rw [hc] at hc'; cases hc' <;> rfl)
  · cases h <;> cases h' <;> rename_i hg hc _ _ _ hg' hc' <;> (rw [hg] at hg'; cases hg'; rw [hc] at hc'; cases hc' <;> rfl)

/-! ## What `verify_compilation` leaves behind -/

/-- **C80.** After `verify_compilation` with a configuration object, every later `verify` with that object uses the gate-cost scheme and the profile
of that compilation, unless the program sets them anew in between. -/
theorem compilation_sticks (ht : Typed conv) {s s1 s2 s3 : Session} {i : Nat} {kw kw' : List (String × V)} {dir level : String}
    {mode : AncillaMode} {i₁ i₂ j₁ j₂ : Param.Input} {c c' : Configuration} {r r' : Except Param.Err Param.Res} {l : List (Call V × Outcome)}
    (hd : (kw.map Prod.fst).Nodup) (hd' : (kw'.map Prod.fst).Nodup) (hl : ∀ e ∈ l, KeywordsDistinct e.1)
    (h1 : Step (C := C) conv default s (.compile (some i) kw dir level mode i₁ i₂) (.result c r) s1)
    (h2 : Trace C conv default s1 l s2) (hn : ∀ e ∈ l, ∀ o, Reserved o → ¬ ∃ f, Writes conv e.1 i o f)
    (h3 : Step (C := C) conv default s2 (.verify (some i) kw' j₁ j₂) (.result c' r') s3)
    (hn' : ∀ o, Reserved o → ¬ ∃ f, Reaches conv kw' o f) :
    (∀ o, o = .constructionScheme ∨ o = .simulationScheme ∨ o = .alternatingScheme → read c' o = .scheme .gateCost) ∧
      read c' .profile = .str (dir ++ "qiskit_O" ++ level ++ "_" ++ mode.str ++ ".profile") := by
  have hc1 : s1.objs[i]? = some c := by
    cases h1 with
    | compile w hg hc =>
      have hs : ∃ c0, s.objs[i]? = some c0 := by
        cases hi : s.objs[i]? with
        | none => simp [Session.given, hi] at hg
        | some c0 => exact ⟨c0, rfl⟩
      obtain ⟨c0, hs⟩ := hs
      rw [store_get hs, if_pos rfl]
  have hc : (∀ o, o = .constructionScheme ∨ o = .simulationScheme ∨ o = .alternatingScheme → read c o = .scheme .gateCost) ∧
      read c .profile = .str (dir ++ "qiskit_O" ++ level ++ "_" ++ mode.str ++ ".profile") := by
    cases h1 with
    | compile w hg hc => exact (compilation_reaches ht hd hc).2.2.2 rfl
  obtain ⟨c2, k2, k3⟩ := session_option ht hl h2 hc1
  have e2 : ∀ o, Reserved o → read c2 o = read c o := by
    intro o ho
    rcases k3 o with ⟨pre, e, post, f, rfl, hw, _⟩ | ⟨_, hv⟩
    · exact absurd ⟨f, hw⟩ (hn e (by simp) o ho)
    · exact hv
  obtain ⟨c3, k4, _, k5⟩ := call_option ht (c := .verify (some i) kw' j₁ j₂) hd' h3 k2
  rw [(session_used ht hd' h3).2.2.1 i rfl] at k4
  cases k4
  have e3 : ∀ o, Reserved o → read c' o = read c o := by
    intro o ho
    refine (k5 o ?_).trans (e2 o ho)
    rintro ⟨f, hw⟩
    cases hw with
    | verify hr => exact hn' o ho ⟨f, hr⟩
  refine ⟨fun o ho => (e3 o ?_).trans (hc.1 o ho), (e3 _ (Or.inr (Or.inr (Or.inr rfl)))).trans hc.2⟩
  rcases ho with rfl | rfl | rfl <;> simp [Reserved]

/-! ## Circuits that cannot be imported -/

/-- **C80.** The manager is constructed exactly if both circuits can be imported (and its constructor does not throw); otherwise the exception names
the first circuit that cannot. -/
theorem import_errors {M : Type} {I : Importer C} {make : C → C → Configuration → Except String M} {i₁ i₂ : Param.Input} {cfg : Configuration} :
    (∀ e, importCircuit I i₁ = .error e → createManager I make i₁ i₂ cfg = .error ("Could not import first circuit: " ++ e)) ∧
    (∀ c e, importCircuit I i₁ = .ok c → importCircuit I i₂ = .error e →
      createManager I make i₁ i₂ cfg = .error ("Could not import second circuit: " ++ e)) ∧
    (∀ c₁ c₂, importCircuit I i₁ = .ok c₁ → importCircuit I i₂ = .ok c₂ → createManager I make i₁ i₂ cfg = make c₁ c₂ cfg) ∧
    (∀ i : Param.Input, ¬ Spec.Param.Verifiable i → ∃ e, importCircuit I i = .error e) := by
  refine ⟨fun e h => by simp [createManager, h], fun c e h h' => by simp [createManager, h, h'], fun c₁ c₂ h h' => by simp [createManager, h, h'], ?_⟩
  intro i hi
  cases i with
  | other =>
    cases h : I.unavailable with
    | none => exact ⟨_, by simp [importCircuit, h]; rfl⟩
    | some e => exact ⟨e, by simp [importCircuit, h]⟩
  | file p => exact absurd (by simp [Spec.Param.Verifiable]) hi
  | circuit c => exact absurd (by simp [Spec.Param.Verifiable]) hi

/-- **C80.** A manager comes into being exactly from two circuits that can be read – each a file that can be read or a circuit object that can be
converted – and a constructor that accepts them. -/
theorem manager_created_iff {M : Type} {I : Importer C} {make : C → C → Configuration → Except String M} {i₁ i₂ : Param.Input} {cfg : Configuration}
    {m : M} : createManager I make i₁ i₂ cfg = .ok m ↔ ∃ c₁ c₂, Spec.PySession.Readable I i₁ c₁ ∧ Spec.PySession.Readable I i₂ c₂ ∧ make c₁ c₂ cfg = .ok m := by
  have key : ∀ (i : Param.Input) (c : C), importCircuit I i = .ok c ↔ Spec.PySession.Readable I i c := by
    intro i c
    cases h : I.unavailable <;> cases i <;> simp [importCircuit, Spec.PySession.Readable, h]
  unfold createManager
  simp only [← key]
  cases h1 : importCircuit I i₁ with
  | error e => simp
  | ok c₁ =>
    cases h2 : importCircuit I i₂ with
    | error e => simp
    | ok c₂ => simp

/-- **C80** (`import_needs_modules`): without the modules `qiskit` and `qiskit.qobj` no manager comes into being, not even from two files, which neither
module has anything to do with. -/
theorem import_needs_modules {M : Type} {I : Importer C} {e : String} (h : I.unavailable = some e) (make : C → C → Configuration → Except String M)
    (i₁ i₂ : Param.Input) (cfg : Configuration) : createManager I make i₁ i₂ cfg = .error ("Could not import first circuit: " ++ e) := by
  have h1 : importCircuit I i₁ = .error e := by cases i₁ <;> simp [importCircuit, h]
  exact import_errors.1 e h1

/-! ## Configurations that are handed out -/

/-- The setters called on manager `j`, in order. -/
def settersOf (j : Nat) (l : List (Call V × Outcome)) : List QCEC.Setter :=
  l.filterMap fun e => match e.1 with
    | .setter j' x => if j' = j then some x else none
    | _ => none

/-- **C80.** What a call creates: `Configuration()` a default one, `get_configuration()` a copy of the manager's configuration as it is at that moment, the
constructor of a manager one that it has made from the two circuits and the object passed (or the default, if none is).  Nothing else creates one. -/
theorem created_configuration {s s' : Session} {c : Call V} {out : Outcome} (h : Step (C := C) conv default s c out s') :
    (c = .new → s'.objs = s.objs ++ [default] ∧ s'.managers = s.managers ∧ (∃ d, s'.objs[s.objs.length]? = some d ∧ d = default)) ∧
    (∀ j, c = .getConfiguration j → s'.managers = s.managers ∧ ∃ d, s.managers[j]? = some d ∧ s'.objs = s.objs ++ [d]) ∧
    (∀ k i₁ i₂, c = .manager k i₁ i₂ → out = .done → s'.objs = s.objs ∧ ∃ (g : Option Configuration) (I : Importer C)
      (make : C → C → Configuration → Except String Configuration) (c₁ c₂ : C) (d : Configuration), s.given k = some g ∧
        Spec.PySession.Readable I i₁ c₁ ∧ Spec.PySession.Readable I i₂ c₂ ∧ make c₁ c₂ (g.getD default) = .ok d ∧ s'.managers = s.managers ++ [d]) ∧
    (c ≠ .new → (∀ j, c ≠ .getConfiguration j) → s'.objs.length = s.objs.length) ∧
    ((∀ k i₁ i₂, c ≠ .manager k i₁ i₂) → s'.managers.length = s.managers.length) := by
  have so : ∀ (k : Option Nat) (x : Configuration), (s.store k x).objs.length = s.objs.length := by
    intro k x; cases k <;> simp [Session.store]
  have sm : ∀ (k : Option Nat) (x : Configuration), (s.store k x).managers = s.managers := by intro k x; cases k <;> rfl
  cases h with
  | new => refine ⟨fun _ => ⟨rfl, rfl, default, by simp, rfl⟩, by simp, by simp, by simp, by simp⟩
  | manager I make hg hm =>
    rename_i k i₁ i₂ g d
    refine ⟨by simp, by simp, ?_, by simp, fun hn => absurd rfl (hn k i₁ i₂)⟩
    rintro k' j₁ j₂ he -
    cases he
    obtain ⟨c₁, c₂, h1, h2, h3⟩ := manager_created_iff.1 hm
    exact ⟨rfl, g, I, make, c₁, c₂, d, hg, h1, h2, h3, rfl⟩
  | getConfiguration hj =>
    rename_i j d
    refine ⟨by simp, ?_, by simp, fun _ hn => absurd rfl (hn j), by simp⟩
    rintro j' he
    cases he
    exact ⟨rfl, d, hj, rfl⟩
  | managerThrows I make hg hm => refine ⟨by simp, by simp, ?_, by simp, by simp⟩; rintro _ _ _ _ h; simp at h
  | _ => simp [so, sm]

/-- **C80.** As long as it is not run, the configuration of a manager is what its constructor made of it, changed by the setters called on this manager, in
the order of the calls; nothing else the program does – verifications, assignments to the object the manager was made from, calls on other managers –
has any influence on it. -/
theorem manager_configuration {s s' : Session} {l : List (Call V × Outcome)} (h : Trace C conv default s l s') {j : Nat} {c : Configuration}
    (hj : s.managers[j]? = some c) (hr : ∀ e ∈ l, e.1 ≠ .run j) :
    s'.managers[j]? = some ((settersOf j l).foldl (fun c x => x.apply c) c) := by
  induction h generalizing c with
  | nil s => exact hj
  | @cons s s1 s2 call out r hstep t ih =>
    have hlt := (List.getElem?_eq_some_iff.1 hj).1
    have iso := (session_isolated hstep).2 j hlt
    have hr' : ∀ e ∈ r, e.1 ≠ .run j := fun e he => hr e (List.mem_cons_of_mem _ he)
    by_cases hon : on call = some j
    · cases hstep with
      | setter hs =>
        rename_i j' x d
        simp only [on, Option.some.injEq] at hon
        subst hon
        rw [hj] at hs
        cases hs
        have h1 : (s.managers.set j' (x.apply c))[j']? = some (x.apply c) := by simp [hlt]
        have := ih (c := x.apply c) h1 hr'
        simpa [settersOf] using this
      | run c' hs =>
        simp only [on, Option.some.injEq] at hon
        subst hon
        exact absurd rfl (hr _ List.mem_cons_self)
      | _ => simp [on] at hon
    · have h1 := iso hon
      rw [hj] at h1
      have h2 := ih h1 hr'
      rw [h2]
      have : settersOf j ((call, out) :: r) = settersOf j r := by
        cases call <;> simp_all [settersOf, on]
      rw [this]

/-- **C80.** `get_configuration()` after any sequence of calls that does not run the manager returns exactly that configuration, and the object returned
is the program's own: later calls on the manager do not change it. -/
theorem fetched_configuration {s s1 s2 s3 : Session} {l l' : List (Call V × Outcome)} {out : Outcome} (h : Trace C conv default s l s1) {j : Nat}
    {c : Configuration} (hj : s.managers[j]? = some c) (hr : ∀ e ∈ l, e.1 ≠ .run j)
    (hg : Step (C := C) conv default s1 (.getConfiguration j) out s2) (h' : Trace C conv default s2 l' s3)
    (hp : ∀ e ∈ l', passed e.1 ≠ some s1.objs.length) :
    s3.objs[s1.objs.length]? = some ((settersOf j l).foldl (fun c x => x.apply c) c) := by
  have hc := manager_configuration h hj hr
  obtain ⟨-, hcr, -⟩ := created_configuration hg
  obtain ⟨-, d, hd, ho⟩ := hcr j rfl
  rw [hc] at hd
  cases hd
  have h2 : s2.objs[s1.objs.length]? = some ((settersOf j l).foldl (fun c x => x.apply c) c) := by rw [ho]; simp
  generalize s1.objs.length = n at h2 hp
  clear hg ho hcr
  induction h' with
  | nil => exact h2
  | cons hstep t ih =>
    have hlt := (List.getElem?_eq_some_iff.1 h2).1
    have := (session_isolated hstep).1 n hlt (Or.inl (hp _ List.mem_cons_self))
    exact ih (this.trans h2) fun e he => hp e (List.mem_cons_of_mem _ he)

end QCEC.Props
