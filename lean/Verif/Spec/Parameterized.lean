import Verif.Model.Parameterized
/-!
# Specification vocabulary for parameterised circuits
-/
namespace QCEC.Spec.Param
open QCEC QCEC.Param

/-- The parameter occurs in the expression. -/
inductive Occurs (p : Parameter) : Expr → Prop
  | var : Occurs p (.var p)
  | addLeft (a b : Expr) (h : Occurs p a) : Occurs p (.add a b)
  | addRight (a b : Expr) (h : Occurs p b) : Occurs p (.add a b)
  | mulLeft (a b : Expr) (h : Occurs p a) : Occurs p (.mul a b)
  | mulRight (a b : Expr) (h : Occurs p b) : Occurs p (.mul a b)
  | neg (a : Expr) (h : Occurs p a) : Occurs p (.neg a)
  | app (f : ℝ → ℝ) (a : Expr) (h : Occurs p a) : Occurs p (.app f a)

/-- The expression has the value `r` when every parameter `p` is replaced by `v p`. -/
inductive Value (v : Parameter → ℝ) : Expr → ℝ → Prop
  | num (r : ℝ) : Value v (.num r) r
  | var (p : Parameter) : Value v (.var p) (v p)
  | add {a b : Expr} {x y : ℝ} (ha : Value v a x) (hb : Value v b y) : Value v (.add a b) (x + y)
  | mul {a b : Expr} {x y : ℝ} (ha : Value v a x) (hb : Value v b y) : Value v (.mul a b) (x * y)
  | neg {a : Expr} {x : ℝ} (ha : Value v a x) : Value v (.neg a) (-x)
  | app (f : ℝ → ℝ) {a : Expr} {x : ℝ} (ha : Value v a x) : Value v (.app f a) (f x)

/-- The circuit with the parameters set to the values of `v`. -/
noncomputable def at_ (c : Circuit) (v : Parameter → ℝ) : Bound :=
  c.map fun g => { label := g.label, qubits := g.qubits, params := g.params.map (Expr.eval v), frozen := g.frozen }

/-- The circuit with all angles smaller than `tol` set to 0, except those of immutable gates. -/
noncomputable def rounded (tol : ℝ) (b : Bound) : Bound :=
  b.map fun g => if g.frozen then g else { g with params := g.params.map fun x => if |x| < tol then 0 else x }

open Classical in
/-- The angles of the parameterised expressions of both circuits, in order, at a valuation. -/
noncomputable def angles (c₁ c₂ : Circuit) (v : Parameter → ℝ) : List ℝ :=
  (((c₁ ++ c₂).flatMap Gate.params).filter fun e => !decide (∃ r, e = .num r)).map (Expr.eval v)

/-- An expression that is an affine combination of parameters. -/
def Affine (e : Expr) : Prop :=
  ∃ (ps : List Parameter) (a : Parameter → ℝ) (c : ℝ), ps.Nodup ∧ ∀ v, e.eval v = c + (ps.map fun p => a p * v p).sum

/-- Both circuits have affine expressions only. -/
def AffineCircuit (c : Circuit) : Prop := ∀ g ∈ c, ∀ e ∈ g.params, Affine e

/-- Two parameterised circuits are equivalent if they are so for all values of the parameters; `eqv` is equivalence of circuits without
parameters. -/
def EquivalentForAll (eqv : Bound → Bound → Prop) (c₁ c₂ : Circuit) : Prop := ∀ v, eqv (at_ c₁ v) (at_ c₂ v)

/-- A verdict of non-equivalence by a manager on circuits without parameters is right. -/
def SoundNegative (w : World) (eqv : Bound → Bound → Prop) : Prop :=
  ∀ k cfg s b₁ b₂ r, w.manager k cfg s (.bound b₁) (.bound b₂) = .ok r → r.equivalence = .notEquivalent → ¬ eqv b₁ b₂

/-- A positive verdict by a manager on circuits without parameters is right. -/
def SoundPositive (w : World) (eqv : Bound → Bound → Prop) : Prop :=
  ∀ k cfg s b₁ b₂ r, w.manager k cfg s (.bound b₁) (.bound b₂) = .ok r → r.equivalence.consideredEquivalent = true → eqv b₁ b₂

/-- The result an event reports, if it is the run of a manager that returned. -/
def result? : Event → Option Res
  | .zx _ _ (.ok r) => some r
  | .check _ _ _ (.ok r) => some r
  | .random _ _ (.ok r) => some r
  | _ => none

/-- The results of all managers that were run, in order. -/
def results (ev : List Event) : List Res := ev.filterMap result?

/-- A check of an instantiation that reported non-equivalence. -/
def refuted : Event → Bool
  | .check _ _ _ (.ok r) => decide (r.equivalence = .notEquivalent)
  | .random _ _ (.ok r) => decide (r.equivalence = .notEquivalent)
  | _ => false

/-- Number of instantiations of the parameters among the events. -/
def instantiations : List Event → Nat
  | [] => 0
  | .instantiate _ :: ev => instantiations ev + 1
  | .random _ _ _ :: ev => instantiations ev + 1
  | _ :: ev => instantiations ev

/-- The times and counters of `r` are the sums over `rs`. -/
def Sums (r : Res) (rs : List Res) : Prop :=
  r.preprocessing = (rs.map Res.preprocessing).sum ∧ r.check = (rs.map Res.check).sum ∧
  r.started = (rs.map Res.started).sum ∧ r.performed = (rs.map Res.performed).sum

/-- Time an event takes (the instantiation with random values is not measured). -/
def duration : Event → Rat
  | .instantiate t => t
  | e => match result? e with
    | some r => r.preprocessing + r.check
    | none => 0

/-- Time all events take. -/
def elapsed (ev : List Event) : Rat := (ev.map duration).sum

/-- Events whose time is taken from the budget: all but the first instantiated check and the check with random values. -/
def charged : Event → Bool
  | .check 0 _ _ _ => false
  | .random _ _ _ => false
  | _ => true

/-- Time taken from the budget. -/
def spent (ev : List Event) : Rat := elapsed (ev.filter charged)

/-- Some gate of the circuit has a parameter that is still symbolic; a file has none before it is read. -/
def Symbolic : Input → Prop
  | .file _ => False
  | .circuit c => ∃ g ∈ c, ∃ e ∈ g.params, ∃ p, Occurs p e
  | .other => False

/-- Circuits and names of files can be verified; other objects cannot. -/
def Verifiable (i : Input) : Prop := i ≠ .other

/-- The six angles the additional instantiations aim at. -/
noncomputable def sixPhases : Fin 6 → ℝ
  | 0 => 0
  | 1 => Real.pi
  | 2 => Real.pi / 2
  | 3 => -(Real.pi / 2)
  | 4 => Real.pi / 4
  | 5 => -(Real.pi / 4)

end QCEC.Spec.Param
