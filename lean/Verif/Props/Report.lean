import Verif.Model.Report
import Verif.Props.Enums
import Verif.Props.Reports
/-!
# The JSON report is faithful (C48)
-/
namespace QCEC.Props
open QCEC QCEC.Mgr QCEC.Report

/-- `j[a][b]...`, reading along a path of keys. -/
def path (j : Json) : List String → Option Json
  | [] => some j
  | k :: ks => (j.get? k).bind fun v => path v ks

/-- **C48**: the verdict stands in the report and can be read back from it. -/
theorem report_verdict (r : Report.Results) : ∃ t, path r.json ["equivalence"] = some (.str t) ∧ Criterion.fromStr t = r.equivalence :=
  ⟨_, rfl, criterion_roundtrip _⟩

/-- **C48**: names, sizes, configuration, times, number of instantiations and the checkers' reports stand in the report. -/
theorem report_fields (r : Report.Results) :
    path r.json ["circuit1", "name"] = some (.str r.circuit1.name) ∧
    path r.json ["circuit1", "num_qubits"] = some (.nat r.circuit1.numQubits) ∧
    path r.json ["circuit1", "num_gates"] = some (.nat r.circuit1.numGates) ∧
    path r.json ["circuit2", "name"] = some (.str r.circuit2.name) ∧
    path r.json ["circuit2", "num_qubits"] = some (.nat r.circuit2.numQubits) ∧
    path r.json ["circuit2", "num_gates"] = some (.nat r.circuit2.numGates) ∧
    path r.json ["configuration"] = some r.configuration.json ∧
    path r.json ["preprocessing_time"] = some (.num r.preprocessingTime) ∧
    path r.json ["check_time"] = some (.num r.checkTime) ∧
    path r.json ["parameterized", "performed_instantiations"] = some (.nat r.performedInstantiations) ∧
    path r.json ["checkers"] = some (.arr r.checkerResults) := by
  refine ⟨rfl, rfl, rfl, rfl, rfl, rfl, rfl, rfl, rfl, ?_, ?_⟩ <;>
    (simp only [path, Results.json, Results.simulationEntry, Json.get?]; split <;> rfl)

/-- **C48**: a manager's own report counts no instantiations; only `check_parameterized` does. -/
theorem report_no_instantiations (c1 c2 : Circuit) (cfg : Configuration) (tp tc : Rat) (vec : Vectors) (details : List Checker) (s : State) :
    path (ofState c1 c2 cfg tp tc vec details s).json ["parameterized", "performed_instantiations"] = some (.nat 0) :=
  (report_fields _).2.2.2.2.2.2.2.2.2.1

/-- **C48**: the simulation counters are reported exactly if a simulation was started. -/
theorem report_simulations (r : Report.Results) :
    path r.json ["simulations", "started"] = (if r.startedSimulations > 0 then some (.nat r.startedSimulations) else none) ∧
    path r.json ["simulations", "performed"] = (if r.startedSimulations > 0 then some (.nat r.performedSimulations) else none) := by
  constructor <;> (simp only [path, Results.json, Results.simulationEntry, Json.get?]; split <;> rfl)

/-- **C48/C57**: each vector of a counterexample is reported exactly if a simulation was started and it is not empty, and then
amplitude by amplitude. -/
theorem report_counterexample (r : Report.Results) :
    path r.json ["simulations", "verification_cex", "input"] =
      (if r.startedSimulations > 0 ∧ r.cexInput ≠ [] then some (.arr (r.cexInput.map fun a => .arr [.num a.1, .num a.2])) else none) ∧
    path r.json ["simulations", "verification_cex", "output1"] =
      (if r.startedSimulations > 0 ∧ r.cexOutput1 ≠ [] then some (.arr (r.cexOutput1.map fun a => .arr [.num a.1, .num a.2])) else none) ∧
    path r.json ["simulations", "verification_cex", "output2"] =
      (if r.startedSimulations > 0 ∧ r.cexOutput2 ≠ [] then some (.arr (r.cexOutput2.map fun a => .arr [.num a.1, .num a.2])) else none) := by
  simp only [path, Results.json, Results.simulationEntry, Results.cexEntry, vectorEntry, vectorJson, Json.get?]
  by_cases h0 : r.startedSimulations > 0 <;> cases r.cexInput <;> cases r.cexOutput1 <;> cases r.cexOutput2 <;>
    simp [h0, Json.get?, List.find?]

theorem vectorJson_injective {v w : List (Rat × Rat)} (h : vectorJson v = vectorJson w) : v = w := by
  unfold vectorJson at h
  injection h with h
  induction v generalizing w with
  | nil => cases w with
    | nil => rfl
    | cons a t => simp at h
  | cons a t ih =>
    cases w with
    | nil => simp at h
    | cons b u =>
      rw [List.map_cons, List.map_cons] at h
      injection h with h1 h2
      rw [ih h2]
      injection h1 with h1
      injection h1 with h3 h4
      injection h4 with h4 _
      injection h3 with h3
      injection h4 with h4
      rw [Prod.ext h3 h4]

/-- **C48**: nothing is lost: two results with the same report agree in everything but, if no simulation was started, the (then
meaningless) performed count and vectors; the configurations agree in everything that a configuration reports. -/
theorem report_faithful (r r' : Report.Results) (h : r.json = r'.json) :
    r.circuit1 = r'.circuit1 ∧ r.circuit2 = r'.circuit2 ∧ r.configuration.json = r'.configuration.json ∧
    r.preprocessingTime = r'.preprocessingTime ∧ r.checkTime = r'.checkTime ∧ r.equivalence = r'.equivalence ∧
    r.performedInstantiations = r'.performedInstantiations ∧ r.checkerResults = r'.checkerResults ∧
    r.startedSimulations = r'.startedSimulations ∧
    (r.startedSimulations > 0 → r.performedSimulations = r'.performedSimulations ∧ r.cexInput = r'.cexInput ∧
      r.cexOutput1 = r'.cexOutput1 ∧ r.cexOutput2 = r'.cexOutput2) := by
  obtain ⟨a1, a2, a3, a4, a5, a6, a7, a8, a9, a10, a11⟩ := report_fields r
  obtain ⟨b1, b2, b3, b4, b5, b6, b7, b8, b9, b10, b11⟩ := report_fields r'
  obtain ⟨t, c1, c2⟩ := report_verdict r
  obtain ⟨u, d1, d2⟩ := report_verdict r'
  obtain ⟨e1, e2⟩ := report_simulations r
  obtain ⟨f1, f2⟩ := report_simulations r'
  obtain ⟨g1, g2, g3⟩ := report_counterexample r
  obtain ⟨i1, i2, i3⟩ := report_counterexample r'
  rw [h] at a1 a2 a3 a4 a5 a6 a7 a8 a9 a10 a11 c1 e1 e2 g1 g2 g3
  have hs : r.startedSimulations = r'.startedSimulations := by
    rw [e1] at f1
    split at f1 <;> split at f1
    · injection f1 with f1; injection f1
    · simp at f1
    · simp at f1
    · omega
  have vec : ∀ v w : List (Rat × Rat), 0 < r.startedSimulations →
      (if r.startedSimulations > 0 ∧ v ≠ [] then some (vectorJson v) else none) =
      (if r'.startedSimulations > 0 ∧ w ≠ [] then some (vectorJson w) else none) → v = w := by
    intro v w h0 hh
    rw [← hs] at hh
    by_cases hv : v = [] <;> by_cases hw : w = []
    · rw [hv, hw]
    · simp [hv, hw, h0] at hh
    · simp [hv, hw, h0] at hh
    · rw [if_pos ⟨h0, hv⟩, if_pos ⟨h0, hw⟩] at hh
      injection hh with hh
      exact vectorJson_injective hh
  refine ⟨?_, ?_, ?_, ?_, ?_, ?_, ?_, ?_, hs, ?_⟩
  · cases h1 : r.circuit1; cases h2 : r'.circuit1
    rw [h1] at a1 a2 a3; rw [h2] at b1 b2 b3
    simp_all
  · cases h1 : r.circuit2; cases h2 : r'.circuit2
    rw [h1] at a4 a5 a6; rw [h2] at b4 b5 b6
    simp_all
  · rw [a7] at b7; injection b7
  · rw [a8] at b8; injection b8 with b8; injection b8
  · rw [a9] at b9; injection b9 with b9; injection b9
  · rw [c1] at d1; injection d1 with d1; injection d1 with d1; rw [← c2, ← d2, d1]
  · rw [a10] at b10; injection b10 with b10; injection b10
  · rw [a11] at b11; injection b11 with b11; injection b11
  · intro h0
    refine ⟨?_, vec _ _ h0 (g1.symm.trans i1), vec _ _ h0 (g2.symm.trans i2), vec _ _ h0 (g3.symm.trans i3)⟩
    rw [e2, if_pos h0, if_pos (by omega)] at f2
    injection f2 with f2; injection f2

/-- **C59**: a checker's report names the checker and carries its verdict; the number of nodes is reported exactly by the decision
diagram checkers. -/
theorem checker_report (c : Report.Checker) :
    (∃ t, path c.json ["equivalence"] = some (.str t) ∧ Criterion.fromStr t = c.equivalence) ∧
    path c.json ["runtime"] = some (.num c.runtime) ∧
    path c.json ["checker"] = some (.str (checkerName c.kind)) ∧
    path c.json ["max_nodes"] = if c.kind = .zx then none else some (.nat c.maxActiveNodes) := by
  refine ⟨⟨_, rfl, criterion_roundtrip _⟩, rfl, ?_, ?_⟩ <;>
    (simp only [path, Checker.json, Json.get?]; split <;> rfl)

/-- **C59**: the four names differ, so a report tells which checker it is from. -/
theorem checker_name_injective (k k' : Kind) (h : checkerName k = checkerName k') : k = k' := by
  cases k <;> cases k' <;> first | rfl | (revert h; decide)

/-- The run found a counterexample by simulation. -/
def Refuted (s : State) : Prop := ∃ e ∈ s.log, e.kind = .simulation ∧ e.verdict = .notEquivalent

open Classical in
/-- **C48/C57**, end to end: the report of the first sequential run of a manager shows an input vector exactly if a simulation
found a counterexample and storing inputs is configured – and then it is the vector of a simulation that found the counterexample –,
and likewise for the two outputs.  The verdict of the report is the verdict of the run. -/
theorem sequential_report {env : Env} {fuel : Nat} {cfg : Configuration} {s' : State} (c1 c2 : Report.Circuit) (tp tc : Rat)
    (vec : Vectors) (details : List Report.Checker) (hm : mode env cfg = .sequential)
    (hin : ∀ i, vec.input i ≠ []) (hout1 : ∀ i, vec.output1 i ≠ []) (hout2 : ∀ i, vec.output2 i ≠ [])
    (h : Mgr.run env fuel (State.fresh cfg) = some (.returned s')) :
    let j := (ofState c1 c2 cfg tp tc vec details s').json
    (∃ t, path j ["equivalence"] = some (.str t) ∧ Criterion.fromStr t = s'.results.equivalence) ∧
    (Refuted s' → ∃ i, env.sim i = some .notEquivalent ∧
      path j ["simulations", "verification_cex", "input"] =
        (if cfg.simulation.storeCEXinput = true then some (vectorJson (vec.input i)) else none) ∧
      path j ["simulations", "verification_cex", "output1"] =
        (if cfg.simulation.storeCEXoutput = true then some (vectorJson (vec.output1 i)) else none) ∧
      path j ["simulations", "verification_cex", "output2"] =
        (if cfg.simulation.storeCEXoutput = true then some (vectorJson (vec.output2 i)) else none)) ∧
    (¬ Refuted s' → path j ["simulations", "verification_cex"] = none) := by
  have hm' : mode env (State.fresh cfg).cfg = .sequential := hm
  obtain ⟨hc1, hc2⟩ := sequential_counterexample hm' h
  have hcnt := sequential_counters hm' rfl rfl h
  simp only
  refine ⟨report_verdict _, ?_, ?_⟩
  · rintro ⟨e, he, hk, hv⟩
    obtain ⟨i, hi, hget⟩ := List.mem_iff_getElem.mp he
    have hi' : s'.log[i]? = some ⟨.simulation, .notEquivalent⟩ := by
      rw [List.getElem?_eq_some_iff]
      refine ⟨hi, ?_⟩
      rw [hget]; cases e; simp_all
    obtain ⟨hs, hci, hco⟩ := hc1 i hi'
    have hpos : 0 < s'.results.startedSimulations := by
      rw [hcnt.1]
      exact List.length_pos_of_mem (List.mem_filter.mpr ⟨he, by simpa using hk⟩)
    have hci' : s'.results.cexInput = if cfg.simulation.storeCEXinput = true then some i else none := hci
    have hco' : s'.results.cexOutput = if cfg.simulation.storeCEXoutput = true then some i else none := hco
    obtain ⟨g1, g2, g3⟩ := report_counterexample (ofState c1 c2 cfg tp tc vec details s')
    have hpos' : 0 < (ofState c1 c2 cfg tp tc vec details s').startedSimulations := hpos
    refine ⟨i, hs, ?_, ?_, ?_⟩
    · have e : (ofState c1 c2 cfg tp tc vec details s').cexInput = pick vec.input (if cfg.simulation.storeCEXinput = true then some i else none) := by
        rw [← hci']; rfl
      rw [g1]
      simp only [e]
      by_cases hb : cfg.simulation.storeCEXinput = true <;> simp [hb, pick, hin i, hpos', vectorJson]
    · have e : (ofState c1 c2 cfg tp tc vec details s').cexOutput1 = pick vec.output1 (if cfg.simulation.storeCEXoutput = true then some i else none) := by
        rw [← hco']; rfl
      rw [g2]
      simp only [e]
      by_cases hb : cfg.simulation.storeCEXoutput = true <;> simp [hb, pick, hout1 i, hpos', vectorJson]
    · have e : (ofState c1 c2 cfg tp tc vec details s').cexOutput2 = pick vec.output2 (if cfg.simulation.storeCEXoutput = true then some i else none) := by
        rw [← hco']; rfl
      rw [g3]
      simp only [e]
      by_cases hb : cfg.simulation.storeCEXoutput = true <;> simp [hb, pick, hout2 i, hpos', vectorJson]
  · intro hno
    obtain ⟨h1, h2⟩ := hc2 hno
    have h1' : s'.results.cexInput = none := h1
    have h2' : s'.results.cexOutput = none := h2
    simp only [path, Results.json, Results.simulationEntry, Results.cexEntry, Json.get?, ofState, h1', h2', pick]
    split <;> rfl

/-- The configuration of the example: simulation only, inputs are stored, outputs are not. -/
def storeCfg : Configuration :=
  let c := testCfg true false false false 3 0
  { c with simulation := { c.simulation with storeCEXinput := true, storeCEXoutput := false } }

/-- The second simulation refutes. -/
def refuting : Env := testEnv (fun k => if k = 1 then some .notEquivalent else some .probablyEquivalent) .runThrows .runThrows .runThrows

/-- The hypotheses of `sequential_report` are met, with a counterexample found by the second simulation. -/
theorem sequential_report_case : mode refuting storeCfg = .sequential ∧
    ∃ s', Mgr.run refuting 9 (State.fresh storeCfg) = some (.returned s') ∧ Refuted s' ∧ s'.results.cexInput = some 1 ∧
      s'.results.cexOutput = none ∧ s'.results.startedSimulations = 2 :=
  ⟨rfl, _, rfl, ⟨⟨.simulation, .notEquivalent⟩, by decide +kernel, rfl, rfl⟩, rfl, rfl, rfl⟩

end QCEC.Props
