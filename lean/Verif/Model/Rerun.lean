import Verif.Model.DD
/-!
# A checker object that is run several times

`DDEquivalenceChecker::run` (`src/checker/dd/DDEquivalenceChecker.cpp:104-141`) can be called again on the same object.  `initialize`
resets the two task managers (`DDEquivalenceChecker.cpp:142-153`, `TaskManager.hpp:34-37`) and creates a new `functionality`
(`DDAlternatingChecker.cpp:21-50`); what survives is the stored `equivalence`, the `done` flag (`EquivalenceChecker.hpp:44-50`) and the
application scheme object, whose lookahead variant keeps `op1`, `cached1`, `op2`, `cached2`
(`LookaheadApplicationScheme.hpp:84-90`).
-/
namespace QCEC.DD
open QCEC

variable {α π ρ M D : Type}

/-- What an alternating checker remembers between two runs.  `polls` counts the calls of `isDone()` so far (`include/checker/EquivalenceChecker.hpp:52-56`, `include/checker/dd/applicationscheme/LookaheadApplicationScheme.hpp:84-90`). -/
structure AltObject (M : Type) where
  equivalence : Criterion := .noInformation
  cached1 : Option M := none
  cached2 : Option M := none
  polls : Nat := 0

/-- `DDEquivalenceChecker::run` of an alternating checker (`DDEquivalenceChecker.cpp:104-141`) as a method of the object: as `runAlt`, but
starting with the caches and the stored verdict of the object; the `i`-th call of `isDone()` over the life of the object returns
`stop i`. -/
def AltObject.run (b : Backend α π ρ M D) (isId : D → Bool) (opEq : α → α → Bool) (sch : AltScheme α π D) (verdict : D → Criterion)
    (stop : Nat → Bool) (qc1 qc2 : Circuit α π ρ) (init : D) (fuel : Nat) (o : AltObject M) : Res (Criterion × AltObject M) :=
  match altLoop b isId opEq sch (fun i => stop (o.polls + i)) fuel
      { c1 := .start qc1, c2 := .start qc2, d := init, cached1 := o.cached1, cached2 := o.cached2, polls := 0 } with
  | .outOfFuel => .outOfFuel
  | .ub => .ub
  | .ok s =>
    let s := altFinish b (fun i => stop (o.polls + i)) s
    let s := altPostprocess b (fun i => stop (o.polls + i)) qc1 qc2 s
    let v := if stop (o.polls + s.polls) then o.equivalence else verdict s.d
    .ok (v, { equivalence := v, cached1 := s.cached1, cached2 := s.cached2, polls := o.polls + s.polls + 1 })

/-- `k` successive calls of a method; the verdicts in order (`src/checker/dd/DDEquivalenceChecker.cpp:104-141` called again). -/
def runsOf {O : Type} (f : O → Res (Criterion × O)) : Nat → O → Res (List Criterion × O)
  | 0, o => .ok ([], o)
  | k + 1, o =>
    match f o with
    | .outOfFuel => .outOfFuel
    | .ub => .ub
    | .ok (v, o') =>
      match runsOf f k o' with
      | .outOfFuel => .outOfFuel
      | .ub => .ub
      | .ok (l, o'') => .ok (v :: l, o'')

/-- What a construction checker (or a simulation checker with an unchanged stimulus) remembers between two runs (`include/checker/EquivalenceChecker.hpp:52-56`). -/
structure TwoObject where
  equivalence : Criterion := .noInformation
  polls : Nat := 0

/-- `DDEquivalenceChecker::run` of a construction checker (`DDEquivalenceChecker.cpp:104-141`) as a method of the object. -/
def TwoObject.run (b : Backend α π ρ M D) (sch : Scheme α π) (partialEq : Bool) (verdict : D → D → Criterion) (stop : Nat → Bool)
    (qc1 qc2 : Circuit α π ρ) (init1 init2 : D) (fuel : Nat) (o : TwoObject) : Res (Criterion × TwoObject) :=
  match runTwo b sch partialEq verdict (fun i => stop (o.polls + i)) o.equivalence qc1 qc2 init1 init2 fuel with
  | .outOfFuel => .outOfFuel
  | .ub => .ub
  | .ok (v, s) => .ok (v, { equivalence := v, polls := o.polls + s.polls + 1 })

end QCEC.DD
