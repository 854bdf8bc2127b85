import Verif.Props.DDFlow
import Verif.Props.Profile
/-!
# How many gates each application scheme asks for (C42, C43)
-/
namespace QCEC.Props
open QCEC QCEC.DD
variable {α π ρ : Type}

/-- **C42**: with a profile, the gate-cost scheme asks for one gate of the first circuit followed by as many gates of the second
circuit as the profile says the gate costs; one if the profile has no entry, or if single-qubit gates are fused and the gate acts on
one qubit. -/
theorem gateCost_with_profile (info : α → OpInfo) (opOf : String → Option OpType) (file : Option (List Char)) (cfg : Configuration)
    (matrix : Bool) (qc1 qc2 : Circuit α π ρ) (table : CostTable) (hp : cfg.application.profile ≠ "")
    (hf : populateFromFile opOf file = .ok table) :
    ∃ sch : Scheme α π, initScheme info opOf file cfg matrix qc1 qc2 .gateCost = .counts sch ∧
      ∀ (c1 c2 : Cur α π) op rest, c1.rest = op :: rest →
        sch c1 c2 = some (1,
          if cfg.optimizations.fuseSingleQubitGates = true ∧ (info op).nused = 1 then 1
          else match table.find ((info op).type, (info op).ncontrols) with
            | some cost => cost
            | none => 1) := by
  refine ⟨gateCostScheme info cfg.optimizations.fuseSingleQubitGates table, ?_, ?_⟩
  · simp [initScheme, hp, hf]
  · intro c1 c2 op rest hr
    unfold gateCostScheme
    by_cases ht : table.isEmpty = true
    · have : table = [] := by simpa using ht
      subst this
      simp [CostTable.find]
    · rw [if_neg ht, hr]
      simp only
      by_cases hfu : cfg.optimizations.fuseSingleQubitGates = true ∧ (info op).nused = 1
      · rw [if_pos hfu, if_pos hfu]
      · rw [if_neg hfu, if_neg hfu]
        cases table.find ((info op).type, (info op).ncontrols) <;> rfl

/-- **C42**: without a profile the number is given by the configured cost function, for every gate of the first circuit. -/
theorem gateCost_with_function (info : α → OpInfo) (opOf : String → Option OpType) (file : Option (List Char)) (cfg : Configuration)
    (matrix : Bool) (qc1 qc2 : Circuit α π ρ) (hp : cfg.application.profile = "") :
    ∃ sch : Scheme α π, initScheme info opOf file cfg matrix qc1 qc2 .gateCost = .counts sch ∧
      ∀ (c1 c2 : Cur α π) op rest, c1.rest = op :: rest → op ∈ qc1.ops →
        sch c1 c2 = some (1,
          if cfg.optimizations.fuseSingleQubitGates = true ∧ (info op).nused = 1 then 1
          else cfg.application.costFunction ((info op).type, (info op).ncontrols)) := by
  refine ⟨gateCostScheme info cfg.optimizations.fuseSingleQubitGates (costFunctionTable cfg.application.costFunction
    (qc1.ops.map (costKeyOf info)) (qc2.ops.map (costKeyOf info))), by simp [initScheme, hp], ?_⟩
  intro c1 c2 op rest hr hmem
  have hk : costKeyOf info op ∈ qc1.ops.map (costKeyOf info) := List.mem_map_of_mem hmem
  have hfind := costFunctionTable_lookup cfg.application.costFunction (qc1.ops.map (costKeyOf info)) (qc2.ops.map (costKeyOf info))
    (costKeyOf info op)
  rw [if_pos (Or.inl hk)] at hfind
  unfold gateCostScheme
  rw [if_neg (by
    intro he
    have : costFunctionTable cfg.application.costFunction (qc1.ops.map (costKeyOf info)) (qc2.ops.map (costKeyOf info)) = [] := by
      simpa using he
    rw [this] at hfind
    simp [CostTable.find] at hfind), hr]
  simp only
  by_cases hfu : cfg.optimizations.fuseSingleQubitGates = true ∧ (info op).nused = 1
  · rw [if_pos hfu, if_pos hfu]
  · rw [if_neg hfu, if_neg hfu]
    have : ((info op).type, (info op).ncontrols) = costKeyOf info op := rfl
    rw [this, hfind]
    rfl

/-- **C42**: a profile that cannot be opened is reported when the scheme is set up, not ignored; so is the lookahead scheme for
anything but matrices. -/
theorem scheme_errors (info : α → OpInfo) (opOf : String → Option OpType) (file : Option (List Char)) (cfg : Configuration)
    (matrix : Bool) (qc1 qc2 : Circuit α π ρ) (t : SchemeType) :
    (∃ e, initScheme info opOf file cfg matrix qc1 qc2 t = .throws e) ↔
      (t = .lookahead ∧ matrix = false) ∨
      (t = .gateCost ∧ cfg.application.profile ≠ "" ∧ ∃ e, populateFromFile opOf file = .error e) := by
  cases t with
  | gateCost =>
    by_cases hp : cfg.application.profile = ""
    · simp [initScheme, hp]
    · cases hf : populateFromFile opOf file <;> simp [initScheme, hp, hf]
  | lookahead => cases matrix <;> simp [initScheme]
  | _ => simp [initScheme]

/-- **C42, C60**: once a profile has been set, setting a cost function has no effect on the gate-cost scheme of any checker: the profile keeps
deciding how many gates are taken. -/
theorem cost_function_ignored (info : α → OpInfo) (opOf : String → Option OpType) (file : Option (List Char)) (cfg : Configuration)
    (matrix : Bool) (qc1 qc2 : Circuit α π ρ) (hp : cfg.application.profile ≠ "") (f : CostKey → Nat) :
    ∀ cfg' ∈ [cfg.setGateCostFunction f, cfg.setConstructionCost f, cfg.setSimulationCost f, cfg.setAlternatingCost f],
      (initScheme info opOf file cfg' matrix qc1 qc2 .gateCost : SchemeInit α π) = initScheme info opOf file cfg matrix qc1 qc2 .gateCost := by
  have key : ∀ c : Configuration, c.application.profile ≠ "" → (initScheme info opOf file c matrix qc1 qc2 .gateCost : SchemeInit α π) =
      match populateFromFile opOf file with
      | .ok table => .counts (gateCostScheme info c.optimizations.fuseSingleQubitGates table)
      | .error e => .throws e := by
    intro c hc
    unfold initScheme
    simp only
    rw [if_pos hc]
    rfl
  intro cfg' h
  simp only [List.mem_cons, List.not_mem_nil, or_false] at h
  rw [key cfg hp, key cfg' (by rcases h with rfl | rfl | rfl | rfl <;> exact hp)]
  rcases h with rfl | rfl | rfl | rfl <;> rfl

/-- **C42, C60**: there is one profile for all checkers: setting that of one checker replaces that of every other one which uses the gate-cost scheme. -/
theorem profile_shared (cfg : Configuration) (p q : String) :
    ((cfg.setConstructionProfile p).setAlternatingProfile q).application.constructionScheme = .gateCost ∧
    ((cfg.setConstructionProfile p).setAlternatingProfile q).application.profile = q ∧
    ((cfg.setConstructionProfile p).setSimulationProfile q).application.constructionScheme = .gateCost ∧
    ((cfg.setConstructionProfile p).setSimulationProfile q).application.profile = q ∧
    ((cfg.setAlternatingProfile p).setConstructionProfile q).application.alternatingScheme = .gateCost ∧
    ((cfg.setAlternatingProfile p).setConstructionProfile q).application.profile = q := ⟨rfl, rfl, rfl, rfl, rfl, rfl⟩

/-- **C43**: the one-to-one scheme alternates single gates; the sequential scheme asks for all gates of both circuits at once. -/
theorem simple_schemes (info : α → OpInfo) (opOf : String → Option OpType) (file : Option (List Char)) (cfg : Configuration)
    (matrix : Bool) (qc1 qc2 : Circuit α π ρ) :
    (∃ sch : Scheme α π, initScheme info opOf file cfg matrix qc1 qc2 .oneToOne = .counts sch ∧ ∀ c1 c2, sch c1 c2 = some (1, 1)) ∧
    (∃ sch : Scheme α π, initScheme info opOf file cfg matrix qc1 qc2 .sequential = .counts sch ∧
      ∀ c1 c2, sch c1 c2 = some (qc1.ops.length, qc2.ops.length)) :=
  ⟨⟨_, rfl, fun _ _ => rfl⟩, ⟨_, rfl, fun _ _ => rfl⟩⟩

/-! ### Concrete case: a Toffoli gate of the first circuit that the profile says costs 15 -/

/-- The profile. -/
def toffoliProfile : Option (List Char) := some "x 2 15\nh 0 1\n".toList

/-- Gate names of the profile. -/
def someNames : String → Option OpType
  | "x" => some .X
  | "h" => some .H
  | _ => none

example : (match populateFromFile someNames toffoliProfile with | .ok t => t.find (.X, 2) | .error _ => none) = some 15 := by
  decide +kernel

/-- The hypothesis of `cost_function_ignored` is met after `set_gate_cost_profile`; the profile says 15 gates, the function says 1. -/
example : ((Configuration.default 8 0).setGateCostProfile "costs.profile").application.profile ≠ "" := by decide

end QCEC.Props
