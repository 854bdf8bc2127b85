import Verif.Spec.SelfCheck
import Verif.Spec.PartialRelation
/-!
# Specification: checking a circuit against itself with partial equivalence

As in `Spec/SelfCheck.lean`, two more things are assumed of mqt-core: an operation compares equal to itself, and the identity is recognised as such.
-/
namespace QCEC.Spec
open QCEC QCEC.Mgr QCEC.Prep QCEC.Spec.Wide QCEC.Sem QCEC.Props

/-- As `PManagerRun`; the comparison of operations recognises an operation that occurs in both circuits (`hself`) and the test for the identity recognises the
identity (`hid`). -/
inductive SharpPManagerRun (lib : Library) (c1 c2 : Circ WOp) (cfg : Configuration) (setters : List Param.Setter) (v : Criterion) : Prop
  | mk (hP : PassesFaithful lib.passes cfg)
      (M : Made WOp) (h : Prep.construct lib.acts lib.passes cfg c1 c2 = .made M) (m n : Nat) (hd : M.qc1.ndata = m) (S : PBase m n) (e1 e2 : Nat → Fin n)
      (hn1 : Numbered e1 M.qc1 S.qc1) (hn2 : Numbered e2 M.qc2 S.qc2) (hsch : Follows S.toMixed M.cfg)
      (hop : ∀ a ∈ M.qc1.ops, ∀ b ∈ M.qc2.ops, S.opEq (a.on e1) (b.on e2) = true → a = b)
      (hself : ∀ a ∈ M.qc1.ops, a ∈ M.qc2.ops → S.opEq (a.on e1) (a.on e2) = true) (hid : S.T.isId 1 = true)
      (hrun : Runs (PAnswer S false) (afterSetters M.cfg setters) (M.qc1.ops = [] ∧ M.qc2.ops = []) v) : SharpPManagerRun lib c1 c2 cfg setters v

/-- The same if nobody interrupts the checkers. -/
inductive SharpCalmPManagerRun (lib : Library) (c1 c2 : Circ WOp) (cfg : Configuration) (setters : List Param.Setter) (v : Criterion) : Prop
  | mk (hP : PassesFaithful lib.passes cfg)
      (M : Made WOp) (h : Prep.construct lib.acts lib.passes cfg c1 c2 = .made M) (m n : Nat) (hd : M.qc1.ndata = m) (S : PBase m n) (e1 e2 : Nat → Fin n)
      (hn1 : Numbered e1 M.qc1 S.qc1) (hn2 : Numbered e2 M.qc2 S.qc2) (hsch : Follows S.toMixed M.cfg)
      (hop : ∀ a ∈ M.qc1.ops, ∀ b ∈ M.qc2.ops, S.opEq (a.on e1) (b.on e2) = true → a = b)
      (hself : ∀ a ∈ M.qc1.ops, a ∈ M.qc2.ops → S.opEq (a.on e1) (a.on e2) = true) (hid : S.T.isId 1 = true)
      (hrun : CalmRuns (PAnswer S) (afterSetters M.cfg setters) (M.qc1.ops = [] ∧ M.qc2.ops = []) v) : SharpCalmPManagerRun lib c1 c2 cfg setters v

/-- The managers of the world `w` behave as `P` says on the circuits that `imp` imports, with partial equivalence switched on. -/
def PManagersDo (P : Circ WOp → Circ WOp → Configuration → List Param.Setter → Criterion → Prop) (imp : Param.Subject → Option (Circ WOp)) (w : Param.World) : Prop :=
  ∀ k cfg setters s1 s2 res c1 c2, cfg.functionality.checkPartialEquivalence = true → imp s1 = some c1 → imp s2 = some c2 →
    w.manager k cfg setters s1 s2 = .ok res → P c1 c2 cfg setters res.equivalence

/-- Somebody calls `verify` or `verify_compilation` for files or circuits without symbolic parameters, with `check_partial_equivalence`, and gets the verdict
`v`; `c1`, `c2` are the imported circuits, `cfg` the options asked for; managers do what `P` says. -/
inductive Py.PartlyCalledWith {V : Type} (P : Circ WOp → Circ WOp → Configuration → List Param.Setter → Criterion → Prop)
    (conv : QCEC.Py.Kind → V → Option QCEC.Py.FieldVal) (c1 c2 : Circ WOp) (cfg : Configuration) (v : Criterion) : Prop
  | mk (default : Configuration) (imp : Param.Subject → Option (Circ WOp)) (w : Param.World) (hw : PManagersDo P imp w) (i₁ i₂ : Param.Input) (res : Param.Res)
      (h : Py.Call conv default w i₁ i₂ cfg res) (hp : cfg.functionality.checkPartialEquivalence = true) (hs1 : ¬ Spec.Param.Symbolic i₁)
      (hs2 : ¬ Spec.Param.Symbolic i₂) (h1 : imp (.given i₁) = some c1) (h2 : imp (.given i₂) = some c2) (hv : res.equivalence = v) :
      PartlyCalledWith P conv c1 c2 cfg v

end QCEC.Spec
