import Verif.Lemmas.WideBridge
import Verif.Props.Prepare
import Verif.Props.EndToEnd
/-!
# Properties: preparing the circuits does not change what is compared (C64)
-/
namespace QCEC.Props
open QCEC QCEC.Prep QCEC.Spec QCEC.Spec.Wide QCEC.Spec.ZX QCEC.Wide QCEC.Mgr QCEC.Sem

/-! ## Stripping idle qubits -/

/-- **C64.** Two circuits without their idle qubits are equal (up to any factor, on all inputs whose fixed qubits are |0⟩) if and only if the
given circuits are; the stripped circuits can be run. -/
theorem strip_preserves {acts : WOp → Nat → Bool} (hacts : Reliable acts) {c1 c2 r1 r2 : Circ WOp} (h1 : Runnable c1) (h2 : Runnable c2)
    (hr : stripIdleQubits acts c1 c2 = some (r1, r2)) :
    Runnable r1 ∧ Runnable r2 ∧ ∀ k, EqualUpTo k r1 r2 ↔ EqualUpTo k c1 c2 := by
  obtain ⟨R, s1, s2, g0, _, g1, g2, ok1, ok2⟩ := strip_idle_qubits acts h1.ok h2.ok
  rw [hr] at g0
  cases g0
  exact ⟨runnable_stripped hacts h1 ok1 g1, runnable_stripped hacts h2 ok2 g2, fun k => equal_stripped hacts h1 h2 g1 g2 ok1 ok2 k⟩

/-- **C64.** A stripped circuit does to the remaining qubits what the given circuit does to them. -/
theorem strip_outputs {acts : WOp → Nat → Bool} (hacts : Reliable acts) {c1 c2 r1 r2 : Circ WOp} (h1 : Runnable c1) (h2 : Runnable c2)
    (hr : stripIdleQubits acts c1 c2 = some (r1, r2)) :
    ∃ removed : List Nat, (∀ q, q ∈ removed ↔ q < max c1.nqubits c2.nqubits ∧ Unused acts c1 q ∧ Unused acts c2 q) ∧
      ∀ v x, Wide.output c1 v x = Wide.output r1 (fun y => v fun q => if q ∈ removed then x q else y (newIndex removed q)) (x ∘ oldIndex removed) ∧
        Wide.output c2 v x = Wide.output r2 (fun y => v fun q => if q ∈ removed then x q else y (newIndex removed q)) (x ∘ oldIndex removed) := by
  obtain ⟨R, s1, s2, g0, g3, g1, g2, ok1, ok2⟩ := strip_idle_qubits acts h1.ok h2.ok
  rw [hr] at g0
  cases g0
  exact ⟨R, g3, fun v x => ⟨output_stripped hacts h1 ok1 g1 v x, output_stripped hacts h2 ok2 g2 v x⟩⟩

/-! ## Ancillary qubits -/

/-- **C64.** Setting up the ancillary qubits changes no output and no input that is fixed to |0⟩.  This holds even where the padding gives
a qubit no physical qubit (`padding_without_physical_qubit`): nothing acts on such a qubit. -/
theorem setup_preserves {c1 c2 r1 r2 : Circ WOp} (h1 : Runnable c1) (h2 : Runnable c2) (hr : setupAncillaries c1 c2 = some (r1, r2)) :
    Wired r1 ∧ Wired r2 ∧ r1.nqubits = max c1.nqubits c2.nqubits ∧ r2.nqubits = max c1.nqubits c2.nqubits ∧
      (∀ v x, Wide.output r1 v x = Wide.output c1 v x) ∧ (∀ v x, Wide.output r2 v x = Wide.output c2 v x) ∧
      (∀ q, Fixed r1 r2 q ↔ Fixed c1 c2 q) ∧ ∀ k, EqualUpTo k r1 r2 ↔ EqualUpTo k c1 c2 := by
  obtain ⟨s1, s2, g0, w1, w2, ga, gb⟩ := setup_ancillaries h1.ok h2.ok
  rw [hr] at g0
  cases g0
  by_cases hn : c1.nqubits > c2.nqubits
  · obtain ⟨hs, hp⟩ := ga hn
    have e1 := output_marked hs
    have e2 := output_padded (by omega) h2.wired hp
    have e3 : ∀ q, Fixed r1 r2 q ↔ Fixed c1 c2 q := fun q => (fixed_comm q).trans ((fixed_setup (by omega) hp hs q).trans (fixed_comm q))
    exact ⟨wired_marked h1.wired hs, wired_padded (by omega) h2.wired hp, w1, w2, e1, e2, e3, equal_congr e1 e2 e3⟩
  · obtain ⟨hp, hs⟩ := gb (by omega)
    have e1 := output_padded (by omega) h1.wired hp
    have e2 := output_marked hs
    have e3 := fixed_setup (by omega) hp hs
    exact ⟨wired_padded (by omega) h1.wired hp, wired_marked h2.wired hs, w1, w2, e1, e2, e3, equal_congr e1 e2 e3⟩

/-! ## Both -/

/-- **C64.** The prepared circuits are equal (up to any factor) if and only if the given ones are; they have the same number of qubits. -/
theorem prepare_preserves {acts : WOp → Nat → Bool} (hacts : Reliable acts) {cfg : Configuration} {c1 c2 : Circ WOp} (h1 : Runnable c1)
    (h2 : Runnable c2) {m : Made WOp} (h : prepare acts cfg (c1, c2) = .made m) :
    Wired m.qc1 ∧ Wired m.qc2 ∧ m.qc1.nqubits = m.qc2.nqubits ∧ ∀ k, EqualUpTo k m.qc1 m.qc2 ↔ EqualUpTo k c1 c2 := by
  obtain ⟨s1, s2, g1, g2, _⟩ := prepare_made h
  obtain ⟨k1, k2, ke⟩ := strip_preserves hacts h1 h2 g1
  obtain ⟨l1, l2, w1, w2, _, _, _, le⟩ := setup_preserves k1 k2 g2
  exact ⟨l1, l2, by rw [w1, w2], fun k => (le k).trans (ke k)⟩

/-! ## With the optimization passes -/

theorem faithful_list {P : Passes (Circ WOp)} : ∀ (l : List Pass), (∀ p ∈ l, Faithful P p) → ∀ c, Runnable c →
    Runnable (l.foldl (fun c p => P.apply p c) c) ∧ (l.foldl (fun c p => P.apply p c) c).nqubits = c.nqubits ∧
      (∀ q, (l.foldl (fun c p => P.apply p c) c).isAncillary q = c.isAncillary q) ∧
      ∀ v x, Wide.output (l.foldl (fun c p => P.apply p c) c) v x = Wide.output c v x := by
  intro l
  induction l with
  | nil => intro _ c hc; exact ⟨hc, rfl, fun _ => rfl, fun _ _ => rfl⟩
  | cons p l ih =>
    intro hl c hc
    obtain ⟨h1, h2, h3, h4⟩ := hl p List.mem_cons_self c hc
    obtain ⟨k1, k2, k3, k4⟩ := ih (fun p hp => hl p (List.mem_cons_of_mem _ hp)) _ h1
    rw [List.foldl_cons]
    exact ⟨k1, k2.trans h2, fun q => (k3 q).trans (h3 q), fun v x => (k4 v x).trans (h4 v x)⟩

/-- **C64.** The whole constructor: if the enabled optimization passes (code of mqt-core) are
faithful, the circuits the manager keeps are equal (up to any factor) if and only if the circuits handed to it are. -/
theorem construct_preserves {acts : WOp → Nat → Bool} (hacts : Reliable acts) {P : Passes (Circ WOp)} {cfg : Configuration}
    {c1 c2 : Circ WOp} (h1 : Runnable c1) (h2 : Runnable c2) (hP : ∀ p ∈ planned cfg.optimizations true, Faithful P p) {m : Made WOp}
    (h : Prep.construct acts P cfg c1 c2 = .made m) :
    Wired m.qc1 ∧ Wired m.qc2 ∧ m.qc1.nqubits = m.qc2.nqubits ∧ ∀ k, EqualUpTo k m.qc1 m.qc2 ↔ EqualUpTo k c1 c2 := by
  have main : ∀ a b : Circ WOp, Runnable a → Runnable b → a.nqubits = c1.nqubits → b.nqubits = c2.nqubits →
      (∀ q, a.isAncillary q = c1.isAncillary q) → (∀ q, b.isAncillary q = c2.isAncillary q) →
      (∀ v x, Wide.output a v x = Wide.output c1 v x) → (∀ v x, Wide.output b v x = Wide.output c2 v x) →
      prepare acts cfg (a, b) = .made m →
      Wired m.qc1 ∧ Wired m.qc2 ∧ m.qc1.nqubits = m.qc2.nqubits ∧ ∀ k, EqualUpTo k m.qc1 m.qc2 ↔ EqualUpTo k c1 c2 := by
    intro a b ha hb na nb aa ab oa ob hm
    obtain ⟨k1, k2, k3, k4⟩ := prepare_preserves hacts ha hb hm
    refine ⟨k1, k2, k3, fun k => (k4 k).trans (equal_congr oa ob ?_ k)⟩
    intro q
    unfold Fixed
    rw [na, nb, aa, ab]
  have sub : ∀ d, ∀ p ∈ planned cfg.optimizations d, Faithful P p := by
    intro d p hp
    refine hP p ?_
    cases d
    · simp only [planned, Bool.false_eq_true, if_false, List.nil_append] at hp
      simp only [planned, if_true]
      exact List.mem_append_right _ hp
    · exact hp
  unfold Prep.construct at h
  split at h
  · rw [passes_exact] at h
    by_cases he : P.empty c1 = true ∧ P.empty c2 = true
    · rw [if_pos he] at h
      exact main c1 c2 h1 h2 rfl rfl (fun _ => rfl) (fun _ => rfl) (fun _ _ => rfl) (fun _ _ => rfl) h
    · rw [if_neg he] at h
      by_cases hd : (P.dynamic c1 = true ∨ P.dynamic c2 = true) ∧ cfg.optimizations.transformDynamicCircuit = false
      · rw [if_pos hd] at h
        exact absurd h (by simp)
      · rw [if_neg hd] at h
        obtain ⟨a1, a2, a3, a4⟩ := faithful_list _ (sub (P.dynamic c1)) c1 h1
        obtain ⟨b1, b2, b3, b4⟩ := faithful_list _ (sub (P.dynamic c2)) c2 h2
        exact main _ _ a1 b1 a2 b2 a3 b3 a4 b4 h
  · exact main c1 c2 h1 h2 rfl rfl (fun _ => rfl) (fun _ => rfl) (fun _ _ => rfl) (fun _ _ => rfl) h

/-! ## The verdict is about the circuits the user gave -/

variable {m n : Nat}

/-- The counted versions are equivalent exactly if the given circuits are equal. -/
theorem counted_same {c1 c2 r1 r2 : Circ WOp} (w1 : Wired r1) (w2 : Wired r2) (he : ∀ k, EqualUpTo k r1 r2 ↔ EqualUpTo k c1 c2)
    (S : Setting m n) {e1 e2 : Nat → Fin n} (hn1 : Numbered e1 r1 S.qc1) (hn2 : Numbered e2 r2 S.qc2) :
    (Same (flags m n) S.qc1 S.ω1 S.qc2 S.ω2 ↔ Equal c1 c2) ∧ (SameUpToPhase (flags m n) S.qc1 S.ω1 S.qc2 S.ω2 ↔ EqualUpToPhase c1 c2) := by
  have hfix : ∀ q, q < n → ((flags m n).getD q false = true ↔ Fixed r1 r2 q) := by
    intro q hq
    have a1 := S.anc1 ⟨q, hq⟩
    have a2 := S.anc2 ⟨q, hq⟩
    rw [hn1.ancillary q hq] at a1
    rw [hn2.ancillary q hq] at a2
    unfold Fixed
    rw [hn1.width, hn2.width, a1, a2]
    constructor
    · intro h; exact Or.inr (Or.inr (Or.inl h))
    · rintro (h | h | h | h)
      · omega
      · omega
      · exact h
      · exact h
  have key := fun k => (same_numbered w1 w2 hn1 hn2 (flags m n) hfix k).trans (he k)
  rw [S.wf1.labels, S.wf2.labels]
  refine ⟨key 1, ?_⟩
  constructor
  · rintro ⟨k, hk, h⟩
    exact ⟨k, hk, (key k).1 h⟩
  · rintro ⟨k, hk, h⟩
    exact ⟨k, hk, (key k).2 h⟩

/-- The counted versions are equivalent exactly if the given circuits are equal. -/
theorem prepared_same {acts : WOp → Nat → Bool} (hacts : Reliable acts) {cfg : Configuration} {c1 c2 : Circ WOp} (h1 : Runnable c1)
    (h2 : Runnable c2) {M : Made WOp} (h : prepare acts cfg (c1, c2) = .made M)
    (S : Setting m n) {e1 e2 : Nat → Fin n} (hn1 : Numbered e1 M.qc1 S.qc1) (hn2 : Numbered e2 M.qc2 S.qc2) :
    (Same (flags m n) S.qc1 S.ω1 S.qc2 S.ω2 ↔ Equal c1 c2) ∧ (SameUpToPhase (flags m n) S.qc1 S.ω1 S.qc2 S.ω2 ↔ EqualUpToPhase c1 c2) := by
  obtain ⟨w1, w2, _, he⟩ := prepare_preserves hacts h1 h2 h
  exact counted_same w1 w2 he S hn1 hn2

theorem verdict_of_meaning {c1 c2 : Circ WOp} {S : Setting m n} {v : Criterion}
    (k : (Same (flags m n) S.qc1 S.ω1 S.qc2 S.ω2 ↔ Equal c1 c2) ∧ (SameUpToPhase (flags m n) S.qc1 S.ω1 S.qc2 S.ω2 ↔ EqualUpToPhase c1 c2))
    (hv : Meaning S v) : VerdictTrue c1 c2 v := by
  obtain ⟨k1, k2⟩ := k
  refine ⟨fun e => k1.1 (hv.equivalent e), fun e => ?_, fun e h => hv.notEquivalent e (k2.2 h), hv.never⟩
  obtain ⟨a, b⟩ := hv.phase e
  exact ⟨k2.1 a, fun h => b (k1.2 h)⟩

/-- **C64.** The whole constructor, with the optimization passes: a verdict that is true of the circuits the manager keeps is true of the circuits
handed to it. -/
theorem constructed_verdict_true {acts : WOp → Nat → Bool} (hacts : Reliable acts) {P : Passes (Circ WOp)} {cfg : Configuration}
    {c1 c2 : Circ WOp} (h1 : Runnable c1) (h2 : Runnable c2) (hP : ∀ p ∈ planned cfg.optimizations true, Faithful P p) {M : Made WOp}
    (h : Prep.construct acts P cfg c1 c2 = .made M) (S : Setting m n) {e1 e2 : Nat → Fin n} (hn1 : Numbered e1 M.qc1 S.qc1)
    (hn2 : Numbered e2 M.qc2 S.qc2) {v : Criterion} (hv : Meaning S v) : VerdictTrue c1 c2 v := by
  obtain ⟨w1, w2, _, he⟩ := construct_preserves hacts h1 h2 hP h
  exact verdict_of_meaning (counted_same w1 w2 he S hn1 hn2) hv

/-- **C64.** A verdict that is true of the prepared circuits is true of the circuits the user gave. -/
theorem prepared_verdict_true {acts : WOp → Nat → Bool} (hacts : Reliable acts) {cfg : Configuration} {c1 c2 : Circ WOp} (h1 : Runnable c1)
    (h2 : Runnable c2) {M : Made WOp} (h : prepare acts cfg (c1, c2) = .made M)
    (S : Setting m n) {e1 e2 : Nat → Fin n} (hn1 : Numbered e1 M.qc1 S.qc1) (hn2 : Numbered e2 M.qc2 S.qc2) {v : Criterion}
    (hv : Meaning S v) : VerdictTrue c1 c2 v := verdict_of_meaning (prepared_same hacts h1 h2 h S hn1 hn2) hv

/-- **C64.** A verdict that decides the equivalence of the prepared circuits decides it for the circuits the user gave. -/
theorem prepared_verdict_decides {acts : WOp → Nat → Bool} (hacts : Reliable acts) {cfg : Configuration} {c1 c2 : Circ WOp} (h1 : Runnable c1)
    (h2 : Runnable c2) {M : Made WOp} (h : prepare acts cfg (c1, c2) = .made M)
    (S : Setting m n) {e1 e2 : Nat → Fin n} (hn1 : Numbered e1 M.qc1 S.qc1) (hn2 : Numbered e2 M.qc2 S.qc2) {v : Criterion}
    (hv : Correct v (flags m n) S.qc1 S.ω1 S.qc2 S.ω2) : Decided c1 c2 v := by
  obtain ⟨k1, k2⟩ := prepared_same hacts h1 h2 h S hn1 hn2
  refine ⟨hv.equivalent.trans k1, hv.phase.trans ?_, hv.notEquivalent.trans (not_congr k2)⟩
  rw [k1, k2]

/-- **C64 / C61**: a sequential run of the manager.  The circuits are prepared, the configured checkers
answer what they compute on the prepared circuits; then the verdict is true of the circuits the user gave. -/
theorem prepared_sequential_verdict {acts : WOp → Nat → Bool} (hacts : Reliable acts) {cfg : Configuration} {c1 c2 : Circ WOp} (h1 : Runnable c1)
    (h2 : Runnable c2) {M : Made WOp} (h : prepare acts cfg (c1, c2) = .made M) (S : Setting m n)
    {e1 e2 : Nat → Fin n} (hn1 : Numbered e1 M.qc1 S.qc1) (hn2 : Numbered e2 M.qc2 S.qc2) {env : Env} {fuel : Nat} {s' : State}
    (hm : mode env M.cfg = .sequential) (hrun : run env fuel (State.fresh M.cfg) = some (.returned s'))
    (hans : ∀ e : Event, FromEnv env e → Enabled M.cfg e.kind → Answer S false e.kind e.verdict) :
    VerdictTrue c1 c2 s'.results.equivalence :=
  prepared_verdict_true hacts h1 h2 h S hn1 hn2 (sequential_verdict_true S hm hrun hans)

/-- **C64 / C61**: a sequential run without timeout, with the alternating or the construction checker enabled and no failing checker,
returns the right verdict about the circuits the user gave. -/
theorem prepared_sequential_decides {acts : WOp → Nat → Bool} (hacts : Reliable acts) {cfg : Configuration} {c1 c2 : Circ WOp} (h1 : Runnable c1)
    (h2 : Runnable c2) {M : Made WOp} (h : prepare acts cfg (c1, c2) = .made M) (S : Setting m n)
    {e1 e2 : Nat → Fin n} (hn1 : Numbered e1 M.qc1 S.qc1) (hn2 : Numbered e2 M.qc2 S.qc2) {env : Env} {fuel : Nat}
    (hm : mode env M.cfg = .sequential) (ht : ¬ M.cfg.execution.timeout > 0) (hfuel : M.cfg.simulation.maxSims < fuel)
    (hen : Enabled M.cfg .alternating ∨ Enabled M.cfg .construction) (hfail : ¬ SomeCheckerFails env M.cfg)
    (hans : ∀ e : Event, FromEnv env e → Enabled M.cfg e.kind → Answer S true e.kind e.verdict) :
    ∃ s', run env fuel (State.fresh M.cfg) = some (.returned s') ∧ Decided c1 c2 s'.results.equivalence := by
  obtain ⟨s', k1, k2⟩ := sequential_verdict_decides S (s := State.fresh M.cfg) hm (by simp [CountersOk, State.fresh]) ht hfuel hen hfail hans
  exact ⟨s', k1, prepared_verdict_decides hacts h1 h2 h S hn1 hn2 k2⟩

/-- **C64 / C61**: a parallel run of the manager, in every schedule and whenever the timeout fires: the verdict is true of the circuits the
user gave. -/
theorem prepared_parallel_verdict {acts : WOp → Nat → Bool} (hacts : Reliable acts) {cfg : Configuration} {c1 c2 : Circ WOp} (h1 : Runnable c1)
    (h2 : Runnable c2) {M : Made WOp} (h : prepare acts cfg (c1, c2) = .made M) (S : Setting m n)
    {e1 e2 : Nat → Fin n} (hn1 : Numbered e1 M.qc1 S.qc1) (hn2 : Numbered e2 M.qc2 S.qc2) {env : Par.ParEnv} {res : Results} {s : Par.PState}
    (hreach : Par.Reachable env M.cfg res s) (hr : s.main = .ended .returned)
    (hans : ∀ k c, Enabled M.cfg k → env.may k c → Answer S false k c) : VerdictTrue c1 c2 s.results.equivalence :=
  prepared_verdict_true hacts h1 h2 h S hn1 hn2 (parallel_verdict_true S hreach hr hans)

end QCEC.Props
