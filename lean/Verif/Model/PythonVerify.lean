import Verif.Model.Python
import Verif.Model.Parameterized
/-!
# Python front end: whole calls of `verify` and `verify_compilation`

`src/mqt/qcec/verify.py:18-62` and `src/mqt/qcec/verify_compilation_flow.py:42-98`: the keyword arguments are merged (`Model/Python.lean`), then the circuits
are checked (`Model/Parameterized.lean`).
-/
namespace QCEC.Py
open QCEC

/-- The exception a call ends with: raised by `augment_config_from_kwargs` (`src/mqt/qcec/configuration.py:76-78`, `setattr` in 65-75) or by the rest
(`src/mqt/qcec/verify.py:52-62`). -/
inductive CallErr
  | config (e : Err)
  | check (e : Param.Err)

variable {V : Type}

/-- Check the circuits with the merged configuration, unless merging raised an exception (`src/mqt/qcec/verify.py:50-62`). -/
noncomputable def checkWith (w : Param.World) (i₁ i₂ : Param.Input) : Configuration × Option Err → Except CallErr Param.Res
  | (_, some e) => .error (.config e)
  | (c, none) =>
    match Param.verify w c i₁ i₂ with
    | .error e => .error (.check e)
    | .ok r => .ok r

/-- `verify(circ1, circ2, configuration, **kwargs)`, `src/mqt/qcec/verify.py:18-62`. -/
noncomputable def verifyCall (conv : Kind → V → Option FieldVal) (default : Configuration) (w : Param.World) (i₁ i₂ : Param.Input)
    (given : Option Configuration) (kwargs : List (String × V)) : Except CallErr Param.Res :=
  checkWith w i₁ i₂ (verifyConfig conv default given kwargs)

/-- `verify_compilation(original, compiled, optimization_level, ancilla_mode, configuration, **kwargs)`,
`src/mqt/qcec/verify_compilation_flow.py:42-98`. -/
noncomputable def verifyCompilationCall (conv : Kind → V → Option FieldVal) (default : Configuration) (w : Param.World) (dir : String)
    (i₁ i₂ : Param.Input) (level : String) (mode : AncillaMode) (given : Option Configuration) (kwargs : List (String × V)) :
    Except CallErr Param.Res :=
  checkWith w i₁ i₂ (compilationConfig conv default given kwargs dir level mode)

end QCEC.Py
