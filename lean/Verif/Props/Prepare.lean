import Verif.Lemmas.Setup
import Verif.Props.StateGen
/-!
# Properties of construction: C26, C32–C37, C51
-/
namespace QCEC.Props
open QCEC QCEC.Prep QCEC.Spec

variable {α Q : Type}

/-! ## C34: idle qubits -/

/-- **C34.** `stripIdleQubits` never fails an assertion, and it removes exactly the qubits to which nothing happens in either
circuit: no operation touches them and they are read out where they came in (or not at all).  Everything else – operations, physical
qubits, order of the logical qubits, outputs, flags – stays. -/
theorem strip_idle_qubits (acts : α → Nat → Bool) {qc1 qc2 : Circ α} (h1 : CircOk qc1) (h2 : CircOk qc2) :
    ∃ removed r1 r2, stripIdleQubits acts qc1 qc2 = some (r1, r2) ∧
      (∀ q, q ∈ removed ↔ q < max qc1.nqubits qc2.nqubits ∧ Unused acts qc1 q ∧ Unused acts qc2 q) ∧
      Stripped acts removed qc1 r1 ∧ Stripped acts removed qc2 r2 ∧ CircOk r1 ∧ CircOk r2 := by
  unfold stripIdleQubits onPair
  by_cases h : qc1.nqubits > qc2.nqubits
  · obtain ⟨R, s, g1, g2, g3⟩ := stripLoop_spec acts h1 h2 (by omega)
    rw [if_pos h, stripPair, g1]
    refine ⟨R, s.larger, s.smaller, rfl, ?_, g2.larger, g2.smaller, g2.okL, g2.okS⟩
    intro q
    rw [g3, Nat.max_eq_left (by omega)]
  · obtain ⟨R, s, g1, g2, g3⟩ := stripLoop_spec acts h2 h1 (by omega)
    rw [if_neg h, stripPair, g1]
    refine ⟨R, s.smaller, s.larger, rfl, ?_, g2.smaller, g2.larger, g2.okS, g2.okL⟩
    intro q
    rw [g3, Nat.max_eq_right (by omega)]
    tauto

/-- **C34.** The two circuits stay comparable: physical qubits that are kept carry the same logical qubit in both circuits
afterwards if and only if they did before; within one circuit the logical qubits keep their order. -/
theorem strip_keeps_correspondence (acts : α → Nat → Bool) {qc1 qc2 r1 r2 : Circ α} (h1 : CircOk qc1) (h2 : CircOk qc2)
    (hr : stripIdleQubits acts qc1 qc2 = some (r1, r2)) :
    (∀ p1 p2 q1 q2 q1' q2', (p1, q1) ∈ qc1.initialLayout → (p1, q1') ∈ r1.initialLayout → (p2, q2) ∈ qc2.initialLayout →
      (p2, q2') ∈ r2.initialLayout → (q1' = q2' ↔ q1 = q2)) ∧
    (∀ p1 p2 q1 q2 q1' q2', (p1, q1) ∈ qc1.outputPermutation → (p1, q1') ∈ r1.outputPermutation → (p2, q2) ∈ qc2.outputPermutation →
      (p2, q2') ∈ r2.outputPermutation → (q1' = q2' ↔ q1 = q2)) ∧
    (∀ p1 p2 q1 q2 q1' q2', (p1, q1) ∈ qc1.initialLayout → (p1, q1') ∈ r1.initialLayout → (p2, q2) ∈ qc1.initialLayout →
      (p2, q2') ∈ r1.initialLayout → (q1' < q2' ↔ q1 < q2)) := by
  obtain ⟨R, s1, s2, g0, _, g1, g2, _, _⟩ := strip_idle_qubits acts h1 h2
  rw [hr] at g0
  cases g0
  have hin : ∀ {c r : Circ α}, CircOk c → Stripped acts R c r → ∀ p q q', (p, q) ∈ c.initialLayout → (p, q') ∈ r.initialLayout →
      q ∉ R ∧ q' = newIndex R q := by
    intro c r hc hs p q q' k1 k2
    obtain ⟨x, k3, k4, k5⟩ := (hs.initial _ _).1 k2
    have := Layout.key_inj (Layout.nodup_of_lt hc.keys) k1 k3
    subst this
    exact ⟨k4, k5⟩
  have hout : ∀ {c r : Circ α}, CircOk c → Stripped acts R c r → ∀ p q q', (p, q) ∈ c.outputPermutation →
      (p, q') ∈ r.outputPermutation → q ∉ R ∧ q' = newIndex R q := by
    intro c r hc hs p q q' k1 k2
    obtain ⟨x, k3, k4, k5⟩ := (hs.output _ _).1 k2
    have := Layout.key_inj (Layout.nodup_of_lt hc.outKeys) k1 k3
    subst this
    exact ⟨k4, k5⟩
  refine ⟨?_, ?_, ?_⟩
  · intro p1 p2 q1 q2 q1' q2' k1 k2 k3 k4
    obtain ⟨e1, rfl⟩ := hin h1 g1 _ _ _ k1 k2
    obtain ⟨e2, rfl⟩ := hin h2 g2 _ _ _ k3 k4
    exact ⟨newIndex_inj e1 e2, fun e => by rw [e]⟩
  · intro p1 p2 q1 q2 q1' q2' k1 k2 k3 k4
    obtain ⟨e1, rfl⟩ := hout h1 g1 _ _ _ k1 k2
    obtain ⟨e2, rfl⟩ := hout h2 g2 _ _ _ k3 k4
    exact ⟨newIndex_inj e1 e2, fun e => by rw [e]⟩
  · intro p1 p2 q1 q2 q1' q2' k1 k2 k3 k4
    obtain ⟨e1, rfl⟩ := hin h1 g1 _ _ _ k1 k2
    obtain ⟨e2, rfl⟩ := hin h1 g1 _ _ _ k3 k4
    constructor
    · intro hlt
      by_contra hge
      have := newIndex_mono R (Nat.le_of_not_lt hge)
      omega
    · intro hlt
      exact newIndex_lt hlt e1

/-- **C34.** A qubit that is used or moved in one of the circuits is still there afterwards, in every circuit that had it. -/
theorem strip_keeps_used (acts : α → Nat → Bool) {qc1 qc2 r1 r2 : Circ α} (h1 : CircOk qc1) (h2 : CircOk qc2)
    (hr : stripIdleQubits acts qc1 qc2 = some (r1, r2)) {q : Nat} (hq : ¬ (Unused acts qc1 q ∧ Unused acts qc2 q)) :
    (∀ p, (p, q) ∈ qc1.initialLayout → ∃ q', (p, q') ∈ r1.initialLayout) ∧
    (∀ p, (p, q) ∈ qc2.initialLayout → ∃ q', (p, q') ∈ r2.initialLayout) := by
  obtain ⟨R, s1, s2, g0, g3, g1, g2, _, _⟩ := strip_idle_qubits acts h1 h2
  rw [hr] at g0
  cases g0
  have hqR : q ∉ R := fun h => hq ((g3 q).1 h).2
  exact ⟨fun p hp => ⟨_, (g1.initial _ _).2 ⟨q, hp, hqR, rfl⟩⟩, fun p hp => ⟨_, (g2.initial _ _).2 ⟨q, hp, hqR, rfl⟩⟩⟩

/-! ## C35: ancillary and garbage qubits -/

/-- **C35.** `setupAncillariesAndGarbage` never fails; both circuits have the larger number of qubits afterwards, the surplus qubits of
the larger circuit are marked ancillary, and the smaller one is padded with ancillary garbage qubits. -/
theorem setup_ancillaries {qc1 qc2 : Circ α} (h1 : CircOk qc1) (h2 : CircOk qc2) :
    ∃ r1 r2, setupAncillaries qc1 qc2 = some (r1, r2) ∧ r1.nqubits = max qc1.nqubits qc2.nqubits ∧
      r2.nqubits = max qc1.nqubits qc2.nqubits ∧
      (qc1.nqubits > qc2.nqubits → SurplusMarked qc2.nqubits qc1 r1 ∧ Padded qc1.nqubits qc2 r2) ∧
      (qc1.nqubits ≤ qc2.nqubits → Padded qc2.nqubits qc1 r1 ∧ SurplusMarked qc1.nqubits qc2 r2) := by
  have key : ∀ {L S : Circ α}, CircOk L → CircOk S → S.nqubits ≤ L.nqubits → ∃ l s,
      setupPair L S = some (l, s) ∧
      SurplusMarked S.nqubits L l ∧ Padded L.nqubits S s := by
    intro L S hL hS hn
    obtain ⟨c, c', removed, g1, g2, g3, _⟩ := surplus hL S.nqubits (L.nqubits - S.nqubits) (by omega)
      (S.addAncillaryRegister (L.nqubits - S.nqubits))
    rw [setupPair, g1]
    simp only
    have hp := (padded hS (L.nqubits - S.nqubits)).1
    rw [show S.nqubits + (L.nqubits - S.nqubits) = L.nqubits by omega] at hp
    exact ⟨_, _, g2, g3, hp⟩
  unfold setupAncillaries onPair
  by_cases h : qc1.nqubits > qc2.nqubits
  · obtain ⟨l, s, g1, g2, g3⟩ := key h1 h2 (by omega)
    rw [if_pos h, g1]
    refine ⟨l, s, rfl, ?_, ?_, fun _ => ⟨g2, g3⟩, fun h' => by omega⟩
    · rw [g2.width]; omega
    · rw [g3.width]; omega
  · obtain ⟨l, s, g1, g2, g3⟩ := key h2 h1 (by omega)
    rw [if_neg h, g1]
    refine ⟨s, l, rfl, ?_, ?_, fun h' => absurd h' h, fun _ => ⟨g3, g2⟩⟩
    · rw [g3.width]; omega
    · rw [g2.width]; omega

/-- **C35.** Circuits of the same width are left alone. -/
theorem setup_same_width {qc1 qc2 r1 r2 : Circ α} (h1 : CircOk qc1) (h2 : CircOk qc2) (hn : qc1.nqubits = qc2.nqubits)
    (hr : setupAncillaries qc1 qc2 = some (r1, r2)) :
    r1.initialLayout = qc1.initialLayout ∧ r1.outputPermutation = qc1.outputPermutation ∧
    r2.initialLayout = qc2.initialLayout ∧ r2.outputPermutation = qc2.outputPermutation ∧
    (∀ q, q < qc1.nqubits → r1.isAncillary q = qc1.isAncillary q ∧ r1.isGarbage q = qc1.isGarbage q ∧
      r2.isAncillary q = qc2.isAncillary q ∧ r2.isGarbage q = qc2.isGarbage q) := by
  obtain ⟨s1, s2, g0, _, _, _, g⟩ := setup_ancillaries h1 h2
  rw [hr] at g0
  cases g0
  obtain ⟨hp, hs⟩ := g (by omega)
  have hi : ∀ k v, (k, v) ∈ r1.initialLayout ↔ (k, v) ∈ qc1.initialLayout := by
    intro k v
    rw [hp.initial]
    constructor
    · rintro (h | ⟨_, h3, h4, _⟩)
      · exact h
      · omega
    · exact Or.inl
  have hsame : setupAncillaries qc1 qc2 = some (qc1.addAncillaryRegister 0, qc2) := by
    unfold setupAncillaries onPair
    rw [if_neg (by omega), setupPair, show qc2.nqubits - qc1.nqubits = 0 by omega]
    rfl
  rw [hr] at hsame
  obtain ⟨e1, e2⟩ := Prod.mk.inj (Option.some.inj hsame)
  refine ⟨by rw [e1]; rfl, hp.output, hs.initial, hs.output, ?_⟩
  intro q hq
  refine ⟨(hp.old q hq).1, (hp.old q hq).2, ?_, by rw [e2]⟩
  rw [e2]

/-! ## C36: what the alternating checker can handle -/

/-- Some operation touches the physical qubit that carries logical qubit `q`. -/
def Acted (acts : α → Nat → Bool) (c : Circ α) (q : Nat) : Prop := ∃ p, (p, q) ∈ c.initialLayout ∧ ¬ Untouched acts c p

theorem isIdle_iff {acts : α → Nat → Bool} {c : Circ α} {p : Nat} : c.isIdle acts p = true ↔ Untouched acts c p := by
  simp [Circ.isIdle, Untouched]

/-- **C36.** `canHandle` refuses a pair iff some logical qubit that is ancillary in both circuits is acted upon in both, or belongs to
neither circuit's layout. -/
theorem canHandle_iff {acts : α → Nat → Bool} {qc1 qc2 : Circ α} (h1 : (qc1.initialLayout.map Prod.snd).Nodup)
    (h2 : (qc2.initialLayout.map Prod.snd).Nodup) : canHandle acts qc1 qc2 = true ↔
    ∀ q, q < qc1.nqubits → qc1.isAncillary q = true → qc2.isAncillary q = true →
      ¬ (Acted acts qc1 q ∧ Acted acts qc2 q) ∧
      ¬ ((∀ p, (p, q) ∉ qc1.initialLayout) ∧ ∀ p, (p, q) ∉ qc2.initialLayout) := by
  unfold canHandle
  simp only [List.all_eq_true, List.mem_range]
  refine forall_congr' fun q => imp_congr Iff.rfl ?_
  unfold handles
  cases ha1 : qc1.isAncillary q
  · simp
  cases ha2 : qc2.isAncillary q
  · simp
  simp only [Bool.and_self, if_true, forall_const]
  have hact : ∀ {c : Circ α} {p : Nat}, (c.initialLayout.map Prod.snd).Nodup → (p, q) ∈ c.initialLayout →
      (Acted acts c q ↔ c.isIdle acts p = false) := by
    intro c p hc hp
    rw [← Bool.not_eq_true, isIdle_iff]
    constructor
    · rintro ⟨p', h3, h4⟩
      rw [Layout.value_inj hc h3 hp] at h4
      exact h4
    · exact fun h => ⟨p, hp, h⟩
  cases k1 : qc1.initialLayout.keyOf q with
  | none =>
    have n1 := Layout.keyOf_none.1 k1
    have hn : ¬ Acted acts qc1 q := fun ⟨p, hp, _⟩ => n1 p hp
    cases k2 : qc2.initialLayout.keyOf q with
    | none =>
      have n2 := Layout.keyOf_none.1 k2
      simp [n1, n2]
    | some p2 =>
      have m2 := (Layout.keyOf_iff h2).1 k2
      simp only [true_iff]
      exact ⟨fun h => hn h.1, fun h => h.2 _ m2⟩
  | some p1 =>
    have m1 := (Layout.keyOf_iff h1).1 k1
    cases k2 : qc2.initialLayout.keyOf q with
    | none =>
      have n2 := Layout.keyOf_none.1 k2
      simp only [true_iff]
      exact ⟨fun ⟨_, p, hp, _⟩ => n2 p hp, fun h => h.1 _ m1⟩
    | some p2 =>
      have m2 := (Layout.keyOf_iff h2).1 k2
      simp only [hact h1 m1, hact h2 m2]
      constructor
      · intro h
        refine ⟨?_, fun h' => h'.1 _ m1⟩
        rintro ⟨e1, e2⟩
        rw [e1, e2] at h
        exact absurd h (by decide)
      · rintro ⟨h, _⟩
        cases e1 : qc1.isIdle acts p1
        · cases e2 : qc2.isIdle acts p2
          · exact absurd ⟨e1, e2⟩ h
          · rfl
        · rfl

/-- **C36.** The alternating checker throws when it is started exactly on the pairs `canHandle` refuses. -/
theorem alternating_throws_iff (acts : α → Nat → Bool) (qc1 qc2 : Circ α) :
    (∃ e, initializeAlternating acts qc1 qc2 = .error e) ↔ canHandle acts qc1 qc2 = false := by
  unfold initializeAlternating
  cases canHandle acts qc1 qc2 <;> simp

/-! ## C33: number of simulations -/

/-- The number of simulations the documentation promises: limited to the number of basis states for basis-state stimuli. -/
def simLimit (nq : Nat) (c : Configuration) : Nat :=
  if c.execution.runSimulationChecker = true ∧ c.simulation.stateType = .computationalBasis then min c.simulation.maxSims (2 ^ nq)
  else c.simulation.maxSims

/-- **C33.** Below 64 data qubits the limit is computed without undefined behaviour: the number of simulations is
`min (max_sims, 2^nq)` for basis-state stimuli if the simulation checker is enabled, and nothing else changes. -/
theorem cap_spec_partial {nq : Nat} (hn : nq < 64) (c : Configuration) :
    capSims nq c = some { c with simulation := { c.simulation with maxSims := simLimit nq c } } := by
  rcases c with ⟨⟨_, _, _, _, rc, rs, ra, rz⟩, _, _, _, ⟨_, ms, st, _, _, _⟩, _⟩
  unfold capSims shl64 simLimit
  simp only [if_pos hn]
  cases rs
  · simp
  · by_cases ht : st = .computationalBasis
    · simp only [ht, decide_true, Bool.and_self, if_true, Option.map_some]
      have h63 : nq ≤ 63 := by omega
      by_cases hm : ms > 2 ^ nq
      · have : min ms (2 ^ nq) = 2 ^ nq := by omega
        simp [h63, hm, this]
      · have : min ms (2 ^ nq) = ms := by omega
        simp [hm, this]
    · simp [ht]

/-- **C33.** The shift that computes the limit is undefined for every circuit with 64 or more data qubits (simulation enabled, basis
states), although the result would not be used. -/
theorem cap_undefined {nq : Nat} (hn : 64 ≤ nq) {c : Configuration} (hs : c.execution.runSimulationChecker = true)
    (ht : c.simulation.stateType = .computationalBasis) : capSims nq c = none := by
  simp [capSims, shl64, hs, ht, show ¬ nq < 64 by omega]

/-! ## C32: fallback, and the result of construction -/

/-- The limit keeps all options but the number of simulations. -/
theorem cap_keeps {nq : Nat} {c c' : Configuration} (h : capSims nq c = some c') :
    ∃ k, c' = { c with simulation := { c.simulation with maxSims := k } } ∧ k ≤ c.simulation.maxSims := by
  unfold capSims at h
  split at h
  · obtain ⟨u, hu, rfl⟩ := Option.map_eq_some_iff.1 h
    split
    · rename_i hcond
      simp only [Bool.and_eq_true, decide_eq_true_eq] at hcond
      exact ⟨u, rfl, by omega⟩
    · exact ⟨c.simulation.maxSims, rfl, Nat.le_refl _⟩
  · cases h
    exact ⟨c.simulation.maxSims, rfl, Nat.le_refl _⟩

/-- What construction delivers, in terms of its parts. -/
theorem prepare_made {acts : α → Nat → Bool} {cfg : Configuration} {c : Circ α × Circ α} {m : Made α}
    (h : prepare acts cfg c = .made m) : ∃ s1 s2, stripIdleQubits acts c.1 c.2 = some (s1, s2) ∧
      setupAncillaries s1 s2 = some (m.qc1, m.qc2) ∧
      capSims m.qc1.ndata (fallback (canHandle acts m.qc1 m.qc2) cfg) = some m.cfg := by
  unfold prepare at h
  cases h1 : stripIdleQubits acts c.1 c.2 with
  | none => simp [h1] at h
  | some s =>
    simp only [h1] at h
    cases h2 : setupAncillaries s.1 s.2 with
    | none => simp [h2] at h
    | some p =>
      simp only [h2] at h
      cases h3 : capSims p.1.ndata (fallback (canHandle acts p.1 p.2) cfg) with
      | none => simp [h3] at h
      | some cfg' =>
        simp only [h3] at h
        cases h
        exact ⟨s.1, s.2, rfl, h2, h3⟩

/-- **C32.** After construction the alternating checker is enabled iff it was requested and can handle the prepared circuits; the
construction checker is enabled iff it was requested or takes over; no other option changes, except that the number of simulations
may be lowered. -/
theorem construct_fallback {acts : α → Nat → Bool} {P : Passes (Circ α)} {cfg : Configuration} {qc1 qc2 : Circ α} {m : Made α}
    (h : construct acts P cfg qc1 qc2 = .made m) :
    ∃ k, k ≤ cfg.simulation.maxSims ∧ m.cfg =
      { cfg with
        execution := { cfg.execution with
          runAlternatingChecker := cfg.execution.runAlternatingChecker && canHandle acts m.qc1 m.qc2
          runConstructionChecker := cfg.execution.runConstructionChecker ||
            (cfg.execution.runAlternatingChecker && !canHandle acts m.qc1 m.qc2) }
        simulation := { cfg.simulation with maxSims := k } } := by
  have hp : ∃ c, prepare acts cfg c = .made m := by
    unfold construct at h
    split at h
    · split at h
      · simp at h
      · exact ⟨_, h⟩
    · exact ⟨_, h⟩
  obtain ⟨c, hp⟩ := hp
  obtain ⟨_, _, _, _, h3⟩ := prepare_made hp
  obtain ⟨k, h4, h5⟩ := cap_keeps h3
  rw [h4]
  refine ⟨k, ?_, ?_⟩
  · have : (fallback (canHandle acts m.qc1 m.qc2) cfg).simulation = cfg.simulation := by
      unfold fallback; split <;> rfl
    rw [← this]
    exact h5
  · rcases cfg with ⟨⟨_, _, _, _, rc, rs, ra, rz⟩, _, _, _, _, _⟩
    unfold fallback
    cases ra <;> cases canHandle acts m.qc1 m.qc2 <;> simp

/-- **C32.** A configured alternating checker never meets a pair on which it throws. -/
theorem alternating_never_throws_after_construction {acts : α → Nat → Bool} {P : Passes (Circ α)} {cfg : Configuration}
    {qc1 qc2 : Circ α} {m : Made α} (h : construct acts P cfg qc1 qc2 = .made m)
    (hr : m.cfg.execution.runAlternatingChecker = true) : initializeAlternating acts m.qc1 m.qc2 = .ok () := by
  obtain ⟨k, _, h2⟩ := construct_fallback h
  rw [h2] at hr
  simp only [Bool.and_eq_true] at hr
  rw [initializeAlternating, if_pos hr.2]

/-- **C32.** At least one of the two functionality checkers runs after construction iff one of them was requested. -/
theorem fallback_keeps_functionality_check {acts : α → Nat → Bool} {P : Passes (Circ α)} {cfg : Configuration}
    {qc1 qc2 : Circ α} {m : Made α} (h : construct acts P cfg qc1 qc2 = .made m) :
    (m.cfg.execution.runAlternatingChecker || m.cfg.execution.runConstructionChecker) =
      (cfg.execution.runAlternatingChecker || cfg.execution.runConstructionChecker) := by
  obtain ⟨k, _, h2⟩ := construct_fallback h
  rw [h2]
  simp only
  cases cfg.execution.runAlternatingChecker <;> cases cfg.execution.runConstructionChecker <;>
    cases canHandle acts m.qc1 m.qc2 <;> rfl

/-- **C35, C36.** After construction from well-formed circuits both circuits have the same number of qubits, and the alternating checker
handles them iff no qubit that is ancillary in both is acted upon in both. -/
theorem prepared_circuits {acts : α → Nat → Bool} {cfg : Configuration} {qc1 qc2 : Circ α} (h1 : CircOk qc1) (h2 : CircOk qc2)
    {m : Made α} (h : prepare acts cfg (qc1, qc2) = .made m) :
    m.qc1.nqubits = m.qc2.nqubits ∧ m.qc1.ops = qc1.ops ∧ m.qc2.ops = qc2.ops ∧
    (canHandle acts m.qc1 m.qc2 = true ↔
      ∀ q, q < m.qc1.nqubits → m.qc1.isAncillary q = true → m.qc2.isAncillary q = true →
        ¬ (Acted acts m.qc1 q ∧ Acted acts m.qc2 q)) := by
  obtain ⟨s1, s2, g1, g2, _⟩ := prepare_made h
  obtain ⟨R, t1, t2, k0, _, k1, k2, ok1, ok2⟩ := strip_idle_qubits acts h1 h2
  rw [g1] at k0
  cases k0
  obtain ⟨t1, t2, l0, l1, l2, l3, l4⟩ := setup_ancillaries ok1 ok2
  rw [g2] at l0
  obtain ⟨e1, e2⟩ := Prod.mk.inj (Option.some.inj l0)
  subst e1
  subst e2
  have hpadInj : ∀ {n : Nat} {c c' : Circ α}, CircOk c → Padded n c c' → (c'.initialLayout.map Prod.snd).Nodup := by
    intro n c c' hc hp
    have hnd := (List.pairwise_map.1 hp.keys).imp (S := fun a b => a ≠ b) (fun h e => by rw [e] at h; omega)
    refine List.Nodup.map_on ?_ hnd
    rintro ⟨a, b⟩ ha ⟨a', b'⟩ hb hab
    simp only at hab
    subst hab
    rcases (hp.initial _ _).1 ha with x1 | ⟨x1, x2, _⟩ <;> rcases (hp.initial _ _).1 hb with y1 | ⟨y1, y2, _⟩
    · rw [Layout.value_inj hc.inj x1 y1]
    · have := (hc.onto _).1 ⟨_, x1⟩; omega
    · have := (hc.onto _).1 ⟨_, y1⟩; omega
    · rw [← x1, ← y1]
  refine ⟨by rw [l1, l2], ?_, ?_, ?_⟩
  · by_cases hlt : s1.nqubits > s2.nqubits
    · rw [(l3 hlt).1.ops, k1.ops]
    · rw [(l4 (by omega)).1.ops, k1.ops]
  · by_cases hlt : s1.nqubits > s2.nqubits
    · rw [(l3 hlt).2.ops, k2.ops]
    · rw [(l4 (by omega)).2.ops, k2.ops]
  · by_cases hlt : s1.nqubits > s2.nqubits
    · obtain ⟨hs, hp⟩ := l3 hlt
      rw [canHandle_iff (by rw [hs.initial]; exact ok1.inj) (hpadInj ok2 hp)]
      refine forall_congr' fun q => forall_congr' fun hq => forall_congr' fun _ => forall_congr' fun _ => and_iff_left ?_
      rintro ⟨hno, _⟩
      obtain ⟨p, hp'⟩ := (ok1.onto q).2 (by rw [hs.width] at hq; exact hq)
      exact hno p (by rw [hs.initial]; exact hp')
    · obtain ⟨hp, hs⟩ := l4 (by omega)
      rw [canHandle_iff (hpadInj ok1 hp) (by rw [hs.initial]; exact ok2.inj)]
      refine forall_congr' fun q => forall_congr' fun hq => forall_congr' fun _ => forall_congr' fun _ => and_iff_left ?_
      rintro ⟨_, hno⟩
      obtain ⟨p, hp'⟩ := (ok2.onto q).2 (by rw [hp.width] at hq; exact hq)
      exact hno p (by rw [hs.initial]; exact hp')

/-- **C32, C33, C35.** Construction from well-formed circuits succeeds – no assertion fails, no access is out of range – whenever the
(optimised) circuits are well formed and at most 63 data qubits remain. -/
theorem construct_defined_partial {acts : α → Nat → Bool} {cfg : Configuration} {qc1 qc2 : Circ α} (h1 : CircOk qc1) (h2 : CircOk qc2) :
    (∃ m, prepare acts cfg (qc1, qc2) = .made m) ∨
    (prepare acts cfg (qc1, qc2) = .undefined ∧ cfg.execution.runSimulationChecker = true ∧
      cfg.simulation.stateType = .computationalBasis ∧ 64 ≤ max qc1.nqubits qc2.nqubits) := by
  obtain ⟨R, s1, s2, k0, _, k1, k2, ok1, ok2⟩ := strip_idle_qubits acts h1 h2
  obtain ⟨t1, t2, l0, l1, l2, l3, l4⟩ := setup_ancillaries ok1 ok2
  unfold prepare
  rw [k0]
  simp only
  rw [l0]
  simp only
  cases h3 : capSims t1.ndata (fallback (canHandle acts t1 t2) cfg) with
  | some c => exact Or.inl ⟨_, rfl⟩
  | none =>
    refine Or.inr ⟨rfl, ?_⟩
    have hf : (fallback (canHandle acts t1 t2) cfg).execution.runSimulationChecker = cfg.execution.runSimulationChecker ∧
        (fallback (canHandle acts t1 t2) cfg).simulation = cfg.simulation := by
      unfold fallback; split <;> exact ⟨rfl, rfl⟩
    by_cases hn : t1.ndata < 64
    · rw [cap_spec_partial hn] at h3
      simp at h3
    · unfold capSims at h3
      rw [hf.1, hf.2] at h3
      split at h3
      · rename_i hc
        simp only [Bool.and_eq_true, decide_eq_true_eq] at hc
        refine ⟨hc.1, hc.2, ?_⟩
        have hw : ∀ {c c' : Circ α}, Stripped acts R c c' → c'.nqubits ≤ c.nqubits := by
          intro c c' hs
          rw [hs.width, newIndex]
          exact Nat.le_trans (List.length_filter_le _ _) (by simp)
        have e1 := hw k1
        have e2 := hw k2
        have e3 : t1.nqubits = t1.ndata + t1.nancillae := rfl
        omega
      · simp at h3

/-! ## C26: every simulation gets its stimulus -/

/-- **C26.** After construction with basis-state stimuli, the generator serves every one of the `max_sims` simulations the
configuration allows (for every fair random source and every seed): requesting that many stimuli never loops forever. -/
theorem capped_requests_return {R : Gen.Rng} (hf : Fair R) {acts : α → Nat → Bool} {P : Passes (Circ α)} {cfg : Configuration}
    {qc1 qc2 : Circ α} {m : Made α} (h : construct acts P cfg qc1 qc2 = .made m)
    (hs : m.cfg.execution.runSimulationChecker = true) (ht : m.cfg.simulation.stateType = .computationalBasis)
    (seed : Nat) (entropy : List Nat) :
    m.cfg.simulation.maxSims ≤ 2 ^ m.qc1.ndata ∧
    ∀ k, k ≤ m.cfg.simulation.maxSims → ∃ sts g', Gen.History (Gen.Generator.new R seed entropy)
      (List.replicate k (.request (Gen.checkerReq m.qc1.nqubits m.qc1.ndata .computationalBasis))) sts g' := by
  have hp : ∃ c, prepare acts cfg c = .made m := by
    unfold construct at h
    split at h
    · split at h
      · simp at h
      · exact ⟨_, h⟩
    · exact ⟨_, h⟩
  obtain ⟨c, hp⟩ := hp
  obtain ⟨_, _, _, _, h3⟩ := prepare_made hp
  obtain ⟨k0, h4, _⟩ := cap_keeps h3
  have hs' : (fallback (canHandle acts m.qc1 m.qc2) cfg).execution.runSimulationChecker = true := by rw [h4] at hs; exact hs
  have ht' : (fallback (canHandle acts m.qc1 m.qc2) cfg).simulation.stateType = .computationalBasis := by rw [h4] at ht; exact ht
  have hn : m.qc1.ndata < 64 := by
    by_contra hge
    rw [cap_undefined (by omega) hs' ht'] at h3
    simp at h3
  have hle : m.cfg.simulation.maxSims ≤ 2 ^ m.qc1.ndata := by
    rw [cap_spec_partial hn] at h3
    rw [← Option.some.inj h3]
    show simLimit m.qc1.ndata _ ≤ _
    unfold simLimit
    rw [if_pos ⟨hs', ht'⟩]
    omega
  refine ⟨hle, ?_⟩
  have hd : m.qc1.ndata ≤ m.qc1.nqubits := Nat.le_add_right _ _
  intro k
  induction k with
  | zero => intro _; exact ⟨[], _, .nil _⟩
  | succ k ih =>
    intro hk
    obtain ⟨sts, g', hh⟩ := ih (by omega)
    obtain ⟨st, g'', hg⟩ := (request_returns_iff hf hd (by omega) rfl hh).2 (by omega)
    rw [List.replicate_succ']
    exact ⟨sts ++ [st], g'', Gen.History.append hh (.request _ _ _ _ _ _ _ hg (.nil _))⟩

/-- **C26.** The guarantee does not survive the setters: after `setMaxSims` raised the number beyond the basis states, some simulation
of the run never gets its stimulus, for every random source. -/
theorem raised_max_never_returns {R : Gen.Rng} (m : Made α) (hn : m.qc1.ndata ≤ 63) {k : Nat} (hk : 2 ^ m.qc1.ndata < k)
    (seed : Nat) (entropy : List Nat) :
    (m.cfg.setMaxSims k).simulation.maxSims = k ∧
    ¬ ∃ sts g', Gen.History (Gen.Generator.new R seed entropy)
      (List.replicate k (.request (Gen.checkerReq m.qc1.nqubits m.qc1.ndata .computationalBasis))) sts g' := by
  refine ⟨rfl, ?_⟩
  rintro ⟨sts, g', hh⟩
  have hd : m.qc1.ndata ≤ m.qc1.nqubits := Nat.le_add_right _ _
  have := at_most_all_stimuli hd hn hh
  omega

/-! ## C37: optimization passes -/

/-- The passes the options ask for, in the order of their execution. -/
def planned (o : Optimizations) (dynamic : Bool) : List Pass :=
  (if dynamic then [.eliminateResets, .deferMeasurements] else []) ++
  ([(o.reconstructSWAPs, Pass.swapReconstruction), (o.backpropagateOutputPermutation, .backpropagateOutputPermutation),
    (o.elidePermutations, .elidePermutations), (o.fuseSingleQubitGates, .singleQubitGateFusion),
    (o.removeDiagonalGatesBeforeMeasure, .removeDiagonalGatesBeforeMeasure), (o.reorderOperations, .reorderOperations),
    (true, .removeFinalMeasurements)].filter (·.1)).map (·.2)

/-- **C37.** The passes run: nothing for two empty circuits, an exception iff a circuit is dynamic and the transformation is not
enabled, and otherwise exactly the enabled passes, on both circuits, in one fixed order, ending with the removal of final
measurements. -/
theorem passes_exact (P : Passes Q) (o : Optimizations) (a b : Q) : P.run o (a, b) =
    if P.empty a = true ∧ P.empty b = true then .ok (a, b)
    else if (P.dynamic a = true ∨ P.dynamic b = true) ∧ o.transformDynamicCircuit = false then
      .error "One of the circuits contains mid-circuit non-unitary primitives."
    else .ok ((planned o (P.dynamic a)).foldl (fun c p => P.apply p c) a, (planned o (P.dynamic b)).foldl (fun c p => P.apply p c) b) := by
  have hst : ∀ a b : Q, P.static o (a, b) = ((planned o false).foldl (fun c p => P.apply p c) a,
      (planned o false).foldl (fun c p => P.apply p c) b) := by
    intro a b
    rcases o with ⟨f, r, d, t, ro, bp, e⟩
    unfold Passes.static Passes.both planned
    cases f <;> cases r <;> cases d <;> cases ro <;> cases bp <;> cases e <;> rfl
  have hdyn : ∀ a : Q, (planned o false).foldl (fun c p => P.apply p c) (P.undynamic a) =
      (planned o (P.dynamic a)).foldl (fun c p => P.apply p c) a := by
    intro a
    unfold Passes.undynamic
    cases P.dynamic a <;> rfl
  unfold Passes.run
  simp only
  cases P.empty a <;> cases P.empty b <;> simp only [Bool.and_self, Bool.and_true, Bool.and_false, Bool.false_eq_true, and_self,
    and_true, and_false, if_true, if_false]
  all_goals
    cases hda : P.dynamic a <;> cases hdb : P.dynamic b <;> cases o.transformDynamicCircuit <;>
      simp [hst, ← hdyn, Passes.undynamic, hda, hdb] <;> first | rfl | exact ⟨rfl, rfl⟩

/-- **C37.** Passes are never run on circuits with free parameters, whatever the passes do and whatever options are set. -/
theorem symbolic_circuits_not_optimised {acts : α → Nat → Bool} {P : Passes (Circ α)} {cfg : Configuration} {qc1 qc2 : Circ α}
    (h : P.variableFree qc1 = false ∨ P.variableFree qc2 = false) : construct acts P cfg qc1 qc2 = prepare acts cfg (qc1, qc2) := by
  unfold construct
  rw [if_neg]
  rcases h with h | h <;> simp [h]

/-- **C37.** Construction throws exactly if there is something to do, a circuit is dynamic and the transformation is off; it never throws
for circuits with free parameters. -/
theorem construct_throws_iff {acts : α → Nat → Bool} {P : Passes (Circ α)} {cfg : Configuration} {qc1 qc2 : Circ α} :
    (∃ e, construct acts P cfg qc1 qc2 = .threw e) ↔
      (P.variableFree qc1 = true ∧ P.variableFree qc2 = true) ∧ ¬ (P.empty qc1 = true ∧ P.empty qc2 = true) ∧
      (P.dynamic qc1 = true ∨ P.dynamic qc2 = true) ∧ cfg.optimizations.transformDynamicCircuit = false := by
  have hprep : ∀ c e, prepare acts cfg c ≠ .threw e := by
    intro c e
    unfold prepare
    split
    · simp
    · split
      · simp
      · split <;> simp
  unfold construct
  rw [passes_exact]
  by_cases hv : P.variableFree qc1 = true ∧ P.variableFree qc2 = true
  · rw [if_pos (by simp [hv.1, hv.2])]
    by_cases he : P.empty qc1 = true ∧ P.empty qc2 = true
    · rw [if_pos he]
      simp only [hprep, exists_false, false_iff]
      exact fun h => h.2.1 he
    · rw [if_neg he]
      by_cases hd : (P.dynamic qc1 = true ∨ P.dynamic qc2 = true) ∧ cfg.optimizations.transformDynamicCircuit = false
      · rw [if_pos hd]
        exact ⟨fun _ => ⟨hv, he, hd.1, hd.2⟩, fun _ => ⟨_, rfl⟩⟩
      · rw [if_neg hd]
        simp only [hprep, exists_false, false_iff]
        exact fun h => hd h.2.2
  · rw [if_neg (by simpa using hv)]
    simp only [hprep, exists_false, false_iff]
    exact fun h => hv h.1

/-- **C37.** If every pass that can run keeps the meaning of a circuit – for any notion of meaning – then the passes together do: the
optimised circuits mean the same iff the given ones do. -/
theorem passes_keep_meaning {M : Type} (mean : Q → M) (P : Passes Q) (o : Optimizations) (a b a' b' : Q)
    (hp : ∀ p, (p ∈ planned o true) → ∀ c, mean (P.apply p c) = mean c) (h : P.run o (a, b) = .ok (a', b')) :
    mean a' = mean a ∧ mean b' = mean b ∧ (mean a' = mean b' ↔ mean a = mean b) := by
  have hf : ∀ d c, mean ((planned o d).foldl (fun c p => P.apply p c) c) = mean c := by
    intro d c
    have hl : ∀ (l : List Pass), (∀ p ∈ l, p ∈ planned o true) → ∀ c, mean (l.foldl (fun c p => P.apply p c) c) = mean c := by
      intro l
      induction l with
      | nil => intro _ c; rfl
      | cons p l ih =>
        intro hl c
        rw [List.foldl_cons, ih (fun p hp => hl p (by simp [hp])), hp p (hl p (by simp))]
    apply hl
    intro p hp
    cases d
    · simp only [planned, Bool.false_eq_true, if_false, List.nil_append] at hp
      simp only [planned, if_true]
      exact List.mem_append_right _ hp
    · exact hp
  have key : mean a' = mean a ∧ mean b' = mean b := by
    rw [passes_exact] at h
    split at h
    · cases h
      exact ⟨rfl, rfl⟩
    · split at h
      · cases h
      · cases h
        exact ⟨hf _ _, hf _ _⟩
  exact ⟨key.1, key.2, by rw [key.1, key.2]⟩

/-! ## C51: optimization methods after construction -/

/-- **C51.** Calling an optimization method twice is calling it once. -/
theorem optimize_idempotent (P : Passes Q) (m : OptMethod) (s : Optimizations × Q × Q) :
    optimize P m (optimize P m s) = optimize P m s := by
  rcases s with ⟨⟨f, r, d, t, ro, bp, e⟩, a, b⟩
  cases m <;> (unfold optimize OptMethod.flag OptMethod.enable; cases f <;> cases r <;> cases ro <;> cases bp <;> cases e <;> rfl)

theorem flag_enable (o : Optimizations) (m m' : OptMethod) :
    m'.flag (m.enable o) = (m'.flag o || decide (m' = m)) := by
  rcases o with ⟨f, r, d, t, ro, bp, e⟩
  cases m <;> cases m' <;> simp [OptMethod.flag, OptMethod.enable]

/-- **C51.** For every history of optimization methods: each pass is applied at most once, to both circuits, at its first call, and only
if it was not enabled at construction; afterwards an option is set iff it was set before or its method was called; options without a
method never change. -/
theorem optimize_history (P : Passes Q) (ms : List OptMethod) (o o' : Optimizations) (a b a' b' : Q)
    (h : ms.foldl (fun s m => optimize P m s) (o, a, b) = (o', a', b')) :
    ∃ l : List OptMethod, l.Nodup ∧ l.Sublist ms ∧ (∀ m, m ∈ l ↔ m ∈ ms ∧ m.flag o = false) ∧
      a' = l.foldl (fun c m => P.apply m.pass c) a ∧ b' = l.foldl (fun c m => P.apply m.pass c) b ∧
      (∀ m : OptMethod, m.flag o' = (m.flag o || decide (m ∈ ms))) ∧
      o'.transformDynamicCircuit = o.transformDynamicCircuit ∧
      o'.removeDiagonalGatesBeforeMeasure = o.removeDiagonalGatesBeforeMeasure := by
  induction ms generalizing o a b with
  | nil =>
    cases h
    exact ⟨[], by simp, by simp, by simp, rfl, rfl, by simp, rfl, rfl⟩
  | cons m ms ih =>
    rw [List.foldl_cons] at h
    unfold optimize at h
    simp only at h
    by_cases hf : m.flag o = true
    · rw [if_pos hf] at h
      obtain ⟨l, h1, h2, h3, h4, h5, h6, h7, h8⟩ := ih _ _ _ h
      refine ⟨l, h1, h2.cons _, ?_, h4, h5, ?_, h7, h8⟩
      · intro m'
        rw [h3, List.mem_cons]
        constructor
        · exact fun h => ⟨Or.inr h.1, h.2⟩
        · rintro ⟨rfl | h, h'⟩
          · rw [hf] at h'; cases h'
          · exact ⟨h, h'⟩
      · intro m'
        rw [h6]
        by_cases e : m' = m
        · subst e; simp [hf]
        · simp [e]
    · rw [if_neg hf] at h
      obtain ⟨l, h1, h2, h3, h4, h5, h6, h7, h8⟩ := ih _ _ _ h
      have hm : m ∉ l := by
        rw [h3, flag_enable]
        simp
      refine ⟨m :: l, List.nodup_cons.2 ⟨hm, h1⟩, h2.cons_cons _, ?_, h4, h5, ?_, ?_, ?_⟩
      · intro m'
        rw [List.mem_cons, List.mem_cons, h3, flag_enable]
        by_cases e : m' = m
        · subst e; simpa using hf
        · simp [e]
      · intro m'
        rw [h6, flag_enable]
        by_cases e : m' = m
        · subst e; simp
        · simp [e]
      · rw [h7]; cases m <;> rfl
      · rw [h8]; cases m <;> rfl

/-- **C51.** After construction of circuits without parameters, an optimization method for an enabled option does nothing: it already
ran. -/
theorem optimize_enabled (P : Passes Q) (m : OptMethod) (s : Optimizations × Q × Q) (h : m.flag s.1 = true) :
    optimize P m s = s ∧ ∀ d, m.pass ∈ planned s.1 d := by
  refine ⟨by rw [optimize, if_pos h], ?_⟩
  intro d
  rcases s with ⟨⟨f, r, dd, t, ro, bp, e⟩, a, b⟩
  cases m <;> simp only [OptMethod.flag] at h <;> subst h <;> cases d <;> simp [planned, OptMethod.pass]

end QCEC.Props
