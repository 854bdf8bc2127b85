import Verif.Props.PythonSession
import Verif.Props.ParamWitness
/-!
# C80: a program that meets the hypotheses, and what it shows
-/
namespace QCEC.Props.PySessionWitness
open QCEC QCEC.Py QCEC.PySession QCEC.Spec.Py QCEC.Spec.PySession

/-- Values are converted if they have the type. -/
def exact (k : Kind) (f : FieldVal) : Option FieldVal := if f.kind = k then some f else none

theorem exact_typed : Typed exact := by
  intro k v f h
  unfold exact at h
  split at h
  · rename_i hk
    cases h
    exact hk
  · exact absurd h (by simp)

/-- The default configuration. -/
def d : Configuration := Configuration.default 8 0
/-- Managers that find every pair of circuits equivalent. -/
noncomputable def w : Param.World := ParamWitness.scripted (fun _ => { equivalence := .equivalent }) fun _ => 0
/-- Two files. -/
def a : Param.Input := .file "a.qasm"
/-- See `a`. -/
def b : Param.Input := .file "b.qasm"
/-- Keywords of the second call: a timeout of five seconds. -/
def five : List (String × FieldVal) := [("timeout", .rat 5)]

/-- The configuration after `verify_compilation`. -/
def compiled : Configuration := (compilationConfig exact d (some d) [] "profiles/" "1" .noAncilla).1
/-- The configuration after `verify` with a timeout. -/
def timed : Configuration := (verifyConfig exact d (some compiled) five).1

/-- `config = Configuration(); verify_compilation(a, b, configuration=config); verify(a, b, config, timeout=5); verify(b, a, config)` -/
noncomputable def program : List (Call FieldVal × Outcome) :=
  [(.new, .done),
   (.compile (some 0) [] "profiles/" "1" .noAncilla a b, .result compiled (Param.verify w compiled a b)),
   (.verify (some 0) five a b, .result timed (Param.verify w timed a b)),
   (.verify (some 0) [] b a, .result timed (Param.verify w timed b a))]

theorem timed_eq : verifyConfig exact d (some compiled) five = (timed, none) := rfl

/-- The program can be run. -/
theorem program_runs : Trace Unit exact d {} program { objs := [timed] } := by
  refine .cons (s' := { objs := [d] }) (.new _) ?_
  refine .cons (s' := { objs := [compiled] }) (.compile { objs := [d] } (g := some d) (c := compiled) w rfl rfl) ?_
  refine .cons (s' := { objs := [timed] }) (.verify { objs := [compiled] } (g := some compiled) (c := timed) w rfl timed_eq) ?_
  refine .cons (s' := { objs := [timed] }) (.verify { objs := [timed] } (g := some timed) (c := timed) w rfl rfl) ?_
  exact .nil _

/-- **C80.** Keyword arguments and the profile outlive the call they were given in: the last verification of the program, which has no keywords, works
with a timeout of five seconds, the gate-cost scheme and the compilation profile, whereas a new configuration object has none of them. -/
theorem calls_are_not_independent :
    (∃ s' r, Trace Unit exact d {} program s' ∧ program.getLast? = some (.verify (some 0) [] b a, .result timed r)) ∧
    read timed .timeout = .rat 5 ∧ read d .timeout = .rat 0 ∧
    read timed .alternatingScheme = .scheme .gateCost ∧ read d .alternatingScheme = .scheme .proportional ∧
    read timed .profile = .str "profiles/qiskit_O1_noancilla.profile" ∧ read d .profile = .str "" := by
  refine ⟨⟨_, _, program_runs, rfl⟩, by decide +kernel, by decide +kernel, by decide +kernel, by decide +kernel, by decide +kernel, by decide +kernel⟩

/-- The hypotheses of `session_option` are met by the program, and the option `timeout` was last set by its third call. -/
example : (∀ e ∈ program, KeywordsDistinct e.1) ∧ ∃ e, program[2]? = some e ∧ Writes exact e.1 0 .timeout (.rat 5) := by
  refine ⟨?_, ?_⟩
  · intro e he
    simp only [program, List.mem_cons, List.not_mem_nil, or_false] at he
    rcases he with rfl | rfl | rfl | rfl <;> simp [KeywordsDistinct, five]
  · exact ⟨_, rfl, .verify ⟨[], "timeout", .rat 5, [], rfl, by simp, by decide, rfl⟩⟩

/-- A keyword that is refused: the earlier ones stay set although nothing was verified. -/
theorem refused_call_changes : ∃ s', Step (C := Unit) exact d { objs := [d] } (.verify (some 0) [("timeout", .rat 5), ("time_out", .rat 6)] a b)
    (.refused (.valueError "time_out")) s' ∧ ∃ c, s'.objs[0]? = some c ∧ read c .timeout = .rat 5 :=
  ⟨_, .verifyRefused { objs := [d] } (g := some d) rfl rfl, _, rfl, by decide +kernel⟩

/-- **C80.** The error message for the second circuit is never that of the first. -/
example (e : String) : createManager (M := Unit) (C := Unit) { file := fun p => if p = "a.qasm" then .ok () else .error e, circuit := fun _ => .ok () }
    (fun _ _ _ => .ok ()) a b d = .error ("Could not import second circuit: " ++ e) := rfl

/-- Two files that can be read, with a Qiskit that has no module `qiskit.qobj`. -/
theorem qobj_missing : ∃ I : Importer Unit, (∀ p, I.file p = .ok ()) ∧
    createManager (M := Unit) I (fun _ _ _ => .ok ()) (.file "a.qasm") (.file "b.qasm") d =
      .error ("Could not import first circuit: " ++ "ModuleNotFoundError: No module named 'qiskit.qobj'") :=
  ⟨{ unavailable := some "ModuleNotFoundError: No module named 'qiskit.qobj'", file := fun _ => .ok (), circuit := fun _ => .ok () }, fun _ => rfl,
    import_needs_modules rfl _ _ _ _⟩

/-- `m = EquivalenceCheckingManager(a, b, config); m.disable_all_checkers(); m.set_zx_checker(True)`, with an assignment to `config` in between -/
def managed : List (Call FieldVal × Outcome) :=
  [(.setter 0 .disableAll, .done), (.assign 0 .timeout (.rat 7), .done), (.setter 0 (.zxChecker true), .done)]

/-- The hypotheses of `manager_configuration` and `fetched_configuration` are met: the object returned has the manager's options, not those assigned to the
object the manager was made from. -/
theorem managed_case : ∃ s' c, Trace Unit exact d { objs := [d], managers := [d] } managed s' ∧ (∀ e ∈ managed, e.1 ≠ .run 0) ∧
    s'.managers[0]? = some c ∧ read c .timeout = .rat 0 ∧ c.execution.runZXChecker = true ∧ c.execution.runAlternatingChecker = false ∧
    Step (C := Unit) exact d s' (.getConfiguration 0) .done { s' with objs := s'.objs ++ [c] } := by
  refine ⟨_, _, .cons (.setter _ rfl) (.cons (.assign _ rfl rfl) (.cons (.setter _ rfl) (.nil _))), ?_, rfl, ?_, rfl, rfl, .getConfiguration _ rfl⟩
  · intro e he
    simp only [managed, List.mem_cons, List.not_mem_nil, or_false] at he
    rcases he with rfl | rfl | rfl <;> simp
  · rfl

end QCEC.Props.PySessionWitness
