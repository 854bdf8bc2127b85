import Verif.Model.PythonVerify
import Verif.Spec.Python
import Verif.Spec.VerifyDecides
/-!
# Specification: calls of `verify` and `verify_compilation`
-/
namespace QCEC.Spec.Py
open QCEC QCEC.Py

variable {V : Type}

/-- The option `o` with keyword `k` has the value `f` in a call: that of its keyword argument, or else that of the configuration passed (of a default one if
none is passed). -/
def Asked (conv : Kind → V → Option FieldVal) (base : Configuration) (kwargs : List (String × V)) (k : String) (o : Opt) (f : FieldVal) : Prop :=
  (∃ v, (k, v) ∈ kwargs ∧ conv o.kind v = some f) ∨ (k ∉ kwargs.map Prod.fst ∧ read base o = f)

/-- A call of `verify` or of `verify_compilation` with the two circuits returns `res`; each option but those `verify_compilation` chooses itself has the value
in `cfg` that was asked for.  Python does not allow a keyword twice. -/
inductive Call (conv : Kind → V → Option FieldVal) (default : Configuration) (w : Param.World) (i₁ i₂ : Param.Input) (cfg : Configuration) (res : Param.Res) :
    Prop
  | verify (given : Option Configuration) (kwargs : List (String × V)) (hk : (kwargs.map Prod.fst).Nodup)
      (h : verifyCall conv default w i₁ i₂ given kwargs = .ok res)
      (hc : ∀ k o f, (k, o) ∈ documented → (read cfg o = f ↔ Asked conv (given.getD default) kwargs k o f)) 
      (hf : cfg.application.costFunction = (given.getD default).application.costFunction)
  | compilation (dir level : String) (mode : AncillaMode) (given : Option Configuration) (kwargs : List (String × V)) (hk : (kwargs.map Prod.fst).Nodup)
      (h : verifyCompilationCall conv default w dir i₁ i₂ level mode given kwargs = .ok res)
      (hc : ∀ k o f, (k, o) ∈ documented → (read cfg o = f ↔ if o = .constructionScheme ∨ o = .simulationScheme ∨ o = .alternatingScheme then
        f = .scheme .gateCost else if o = .profile then f = .str (dir ++ "qiskit_O" ++ level ++ "_" ++ mode.str ++ ".profile")
        else Asked conv (given.getD default) kwargs k o f)) 
      (hf : cfg.application.costFunction = (given.getD default).application.costFunction)

open QCEC.Prep QCEC.Spec.Wide

/-- Somebody calls `verify` or `verify_compilation` for files or circuits without symbolic parameters, without partial equivalence, and gets the verdict `v`;
`c1`, `c2` are the imported circuits, `cfg` the options asked for.  The call may be interrupted. -/
inductive Checked (lib : Library) (conv : Kind → V → Option FieldVal) (c1 c2 : Circ WOp) (cfg : Configuration) (v : Criterion) : Prop
  | mk (default : Configuration) (imp : Param.Subject → Option (Circ WOp)) (w : Param.World) (hw : Realises lib imp w) (i₁ i₂ : Param.Input) (res : Param.Res)
      (h : Call conv default w i₁ i₂ cfg res) (hp : cfg.functionality.checkPartialEquivalence = false) (hs1 : ¬ Spec.Param.Symbolic i₁)
      (hs2 : ¬ Spec.Param.Symbolic i₂) (h1 : imp (.given i₁) = some c1) (h2 : imp (.given i₂) = some c2) (hv : res.equivalence = v) :
      Checked lib conv c1 c2 cfg v

/-- The same, but nobody interrupts the checkers, and the alternating or the construction checker is enabled. -/
inductive FullyChecked (lib : Library) (conv : Kind → V → Option FieldVal) (c1 c2 : Circ WOp) (cfg : Configuration) (v : Criterion) : Prop
  | mk (default : Configuration) (imp : Param.Subject → Option (Circ WOp)) (w : Param.World) (hw : CalmRealises lib imp w) (i₁ i₂ : Param.Input)
      (res : Param.Res) (h : Call conv default w i₁ i₂ cfg res) (hp : cfg.functionality.checkPartialEquivalence = false)
      (hs1 : ¬ Spec.Param.Symbolic i₁) (hs2 : ¬ Spec.Param.Symbolic i₂) (h1 : imp (.given i₁) = some c1) (h2 : imp (.given i₂) = some c2)
      (hen : cfg.execution.runAlternatingChecker = true ∨ cfg.execution.runConstructionChecker = true) (hv : res.equivalence = v) :
      FullyChecked lib conv c1 c2 cfg v

/-- The cases in which a call that nobody interrupts does not decide (C82). -/
def Excused (lib : Library) (c1 c2 : Circ WOp) (cfg : Configuration) (v : Criterion) : Prop :=
  v = .equivalent ∧ CrossedShortcut lib c1 c2 cfg ∨ v = .noInformation ∧ ParallelWithBoth cfg ∨ Misled lib c1 c2 cfg []

end QCEC.Spec.Py
