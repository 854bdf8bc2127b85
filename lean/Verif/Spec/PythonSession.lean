import Verif.Model.PythonSession
import Verif.Spec.Python
/-!
# Specification: which call sets which option of which configuration object
-/
namespace QCEC.Spec.PySession
open QCEC QCEC.Py QCEC.PySession QCEC.Spec.Py

variable {V : Type}

/-- The keyword argument is a documented option and has a value of its type. -/
def Accepted (conv : Kind → V → Option FieldVal) (e : String × V) : Prop := ∃ o, (e.1, o) ∈ documented ∧ (conv o.kind e.2).isSome = true

/-- The options `verify_compilation` sets itself. -/
def Reserved (o : Opt) : Prop := o = .constructionScheme ∨ o = .simulationScheme ∨ o = .alternatingScheme ∨ o = .profile

/-- A keyword argument for option `o` with value `f` is reached: it and all keyword arguments before it are accepted. -/
def Reaches (conv : Kind → V → Option FieldVal) (kwargs : List (String × V)) (o : Opt) (f : FieldVal) : Prop :=
  ∃ pre key v post, kwargs = pre ++ (key, v) :: post ∧ (∀ e ∈ pre, Accepted conv e) ∧ (key, o) ∈ documented ∧ conv o.kind v = some f

/-- The call sets option `o` of configuration object `k` to `f`. -/
inductive Writes (conv : Kind → V → Option FieldVal) : Call V → Nat → Opt → FieldVal → Prop
  /-- an assignment of a value of the right type -/
  | assign {k o v f} (h : conv o.kind v = some f) : Writes conv (.assign k o v) k o f
  /-- a keyword argument of `verify` -/
  | verify {k kwargs i₁ i₂ o f} (h : Reaches conv kwargs o f) : Writes conv (.verify (some k) kwargs i₁ i₂) k o f
  /-- a keyword argument of `verify_compilation`, unless it is overridden -/
  | keyword {k kwargs dir level mode i₁ i₂ o f} (h : Reaches conv kwargs o f) (hr : (∀ e ∈ kwargs, Accepted conv e) → ¬ Reserved o) :
      Writes conv (.compile (some k) kwargs dir level mode i₁ i₂) k o f
  | scheme {k kwargs dir level mode i₁ i₂ o} (ha : ∀ e ∈ kwargs, Accepted conv e)
      (ho : o = .constructionScheme ∨ o = .simulationScheme ∨ o = .alternatingScheme) :
      Writes conv (.compile (some k) kwargs dir level mode i₁ i₂) k o (.scheme .gateCost)
  | profile {k kwargs dir level mode i₁ i₂} (ha : ∀ e ∈ kwargs, Accepted conv e) :
      Writes conv (.compile (some k) kwargs dir level mode i₁ i₂) k .profile
        (.str (dir ++ "qiskit_O" ++ level ++ "_" ++ mode.str ++ ".profile"))

/-- Python passes every keyword at most once. -/
def KeywordsDistinct : Call V → Prop
  | .verify _ kwargs _ _ => (kwargs.map Prod.fst).Nodup
  | .compile _ kwargs _ _ _ _ _ => (kwargs.map Prod.fst).Nodup
  | _ => True

/-- What a circuit argument can be read as, provided that `qiskit` and `qiskit.qobj` are installed: the contents of a file that is named, or a
circuit object converted. -/
def Readable {C : Type} (I : Importer C) (i : Param.Input) (c : C) : Prop :=
  I.unavailable = none ∧
    match i with
    | .file p => I.file p = .ok c
    | .circuit q => I.circuit q = .ok c
    | .other => False

end QCEC.Spec.PySession
