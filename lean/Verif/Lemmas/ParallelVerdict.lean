import Verif.Lemmas.Parallel
/-!
# Invariants of the parallel flow: the verdict
-/
namespace QCEC.Par
open QCEC QCEC.Mgr QCEC.Spec

/-- Induction over the reachable states. -/
theorem Reachable.induct {env : ParEnv} {cfg : Configuration} {res : Results} {P : PState → Prop}
    (h0 : P (launch env.zxTransformable cfg res))
    (hs : ∀ s s', Base env cfg s → P s → Step env s s' → P s') {s : PState} (h : Reachable env cfg res s) : P s := by
  unfold Reachable at h
  induction h with
  | refl => exact h0
  | tail h1 hst ih => exact hs _ _ (reachable_base h1) ih hst

/-- A step either leaves results and log alone or handles a completion. -/
theorem step_effect {env : ParEnv} {s s' : PState} (h : Step env s s') :
    (s'.results = s.results ∧ s'.log = s.log ∧ s'.cfg = s.cfg ∧
      ((s'.done = s.done ∧ s'.timedOut = s.timedOut) ∨
       (s.main = .wait ∧ s'.done = true ∧ s'.timedOut = true ∧ s.cfg.execution.timeout > 0))) ∨
    ∃ i x q, s.main = .wait ∧ s.queue = i :: q ∧ s.slots[i]? = some x ∧ x.failed = false ∧ s' = s.popped i x q := by
  cases h with
  | pop i x q hm hq hx hf => exact Or.inr ⟨i, x, q, hm, hq, hx, hf, rfl⟩
  | timeout hm ht => exact Or.inl ⟨rfl, rfl, rfl, Or.inr ⟨hm, rfl, rfl, ht⟩⟩
  | _ => exact Or.inl ⟨rfl, rfl, rfl, Or.inl ⟨rfl, rfl⟩⟩

/-- All configured simulations have been performed. -/
def AllSims (s : PState) : Prop := s.results.performedSimulations = s.cfg.simulation.maxSims

open Classical in
/-- State in which no completion has settled the question. -/
structure Open (cfg : Configuration) (r : Results) (log : List Event) : Prop where
  none : ∀ e ∈ log, ¬ Conclusive e ∧ ¬ GivesUp e
  verdict : r.equivalence = if ∃ e ∈ log, Suspects e then .probablyNotEquivalent
    else if ∃ e ∈ log, Passed e then .probablyEquivalent else .noInformation
  pending : (∃ e ∈ log, Suspects e) → (∃ e ∈ log, Passed e) → r.performedSimulations ≠ cfg.simulation.maxSims

theorem Open.explained {cfg : Configuration} {r : Results} {log : List Event} (h : Open cfg r log) :
    ParExplained (r.performedSimulations = cfg.simulation.maxSims) log r.equivalence := by
  refine ⟨fun e he hc => absurd hc (h.none e he).1, fun e he hg => absurd hg (h.none e he).2, fun _ => ?_⟩
  rw [h.verdict]
  unfold parEvidence
  by_cases hs : ∃ e ∈ log, Suspects e
  · rw [if_pos hs, if_pos hs, if_neg]
    rintro ⟨hp, hf⟩
    exact h.pending hs hp hf
  · rw [if_neg hs, if_neg hs]

theorem exists_snoc {α : Type} (l : List α) (a : α) (P : α → Prop) : (∃ e ∈ l ++ [a], P e) ↔ (∃ e ∈ l, P e) ∨ P a := by
  constructor
  · rintro ⟨e, he, hp⟩
    rcases List.mem_append.mp he with he | he
    · exact Or.inl ⟨e, he, hp⟩
    · simp at he; subst he; exact Or.inr hp
  · rintro (⟨e, he, hp⟩ | hp)
    · exact ⟨e, List.mem_append_left _ he, hp⟩
    · exact ⟨a, by simp, hp⟩

theorem forall_snoc {α : Type} (l : List α) (a : α) (P : α → Prop) : (∀ e ∈ l ++ [a], P e) ↔ (∀ e ∈ l, P e) ∧ P a := by
  constructor
  · intro h; exact ⟨fun e he => h e (List.mem_append_left _ he), h a (by simp)⟩
  · rintro ⟨h, ha⟩ e he
    rcases List.mem_append.mp he with he | he
    · exact h e he
    · simp at he; subst he; exact ha

/-- A settling completion after an open history. -/
theorem explained_final {cfg : Configuration} {r : Results} {log : List Event} (h : Open cfg r log) {fin : Prop} {a : Event}
    {v : Criterion} (ha : (Conclusive a ∧ v = a.verdict) ∨ (GivesUp a ∧ v = .noInformation))
    (hx : Conclusive a → GivesUp a → a.verdict = .noInformation) :
    ParExplained fin (log ++ [a]) v := by
  refine ⟨?_, ?_, ?_⟩
  · rw [forall_snoc]
    refine ⟨fun e he hc => absurd hc (h.none e he).1, fun hc => ?_⟩
    rcases ha with ⟨_, hv⟩ | ⟨hg, hv⟩
    · exact hv
    · rw [hv, hx hc hg]
  · rw [forall_snoc]
    refine ⟨fun e he hc => absurd hc (h.none e he).2, fun hg => ?_⟩
    rcases ha with ⟨hc, hv⟩ | ⟨_, hv⟩
    · rw [hv, hx hc hg]
    · exact hv
  · rw [forall_snoc]
    rintro ⟨_, hc, hg⟩
    rcases ha with ⟨h', _⟩ | ⟨h', _⟩
    · exact absurd h' hc
    · exact absurd h' hg

open Classical in
/-- An event that neither settles the question nor changes the evidence. -/
theorem Open.neutral {cfg : Configuration} {r : Results} {log : List Event} (h : Open cfg r log) {a : Event}
    (hc : ¬ Conclusive a) (hg : ¬ GivesUp a) (hs : ¬ Suspects a) (hp : ¬ Passed a) : Open cfg r (log ++ [a]) := by
  refine ⟨(forall_snoc ..).mpr ⟨h.none, hc, hg⟩, ?_, ?_⟩
  · have e1 : (∃ e ∈ log ++ [a], Suspects e) ↔ ∃ e ∈ log, Suspects e := by rw [exists_snoc]; exact or_iff_left hs
    have e2 : (∃ e ∈ log ++ [a], Passed e) ↔ ∃ e ∈ log, Passed e := by rw [exists_snoc]; exact or_iff_left hp
    rw [h.verdict]
    exact (if_congr e1 rfl (if_congr e2 rfl rfl)).symm
  · rw [exists_snoc, exists_snoc, or_iff_left hs, or_iff_left hp]
    exact h.pending

/-- Handling the end of a ZX check. -/
theorem handleZX_spec {cfg : Configuration} {r : Results} {log : List Event} (h : Open cfg r log) (c : Criterion) :
    ParExplained ((handleZX cfg r c).1.performedSimulations = cfg.simulation.maxSims) (log ++ [⟨.zx, c⟩])
      (handleZX cfg r c).1.equivalence ∧
    ((handleZX cfg r c).2 ≠ .stop → Open cfg (handleZX cfg r c).1 (log ++ [⟨.zx, c⟩])) := by
  unfold handleZX
  split
  · rename_i hc
    exact ⟨explained_final h (Or.inl ⟨hc, rfl⟩) (by simp [GivesUp]), by simp⟩
  rename_i hc
  split
  · rename_i hpne
    have hcc : ¬ Conclusive ⟨.zx, c⟩ := hc
    have hgg : ¬ GivesUp ⟨.zx, c⟩ := by simp [GivesUp]
    have hss : Suspects ⟨.zx, c⟩ := ⟨rfl, hpne⟩
    have hpp : ¬ Passed ⟨.zx, c⟩ := by simp [Passed]
    have hnone := (forall_snoc log ⟨.zx, c⟩ fun e => ¬ Conclusive e ∧ ¬ GivesUp e).mpr ⟨h.none, hcc, hgg⟩
    have hexs : (∃ e ∈ log ++ [⟨.zx, c⟩], Suspects e) := (exists_snoc ..).mpr (Or.inr hss)
    split
    · rename_i hpe
      have hsn : ¬ ∃ e ∈ log, Suspects e := by
        intro hs; have := h.verdict; rw [if_pos hs, hpe] at this; simp at this
      have hps : ∃ e ∈ log, Passed e := by
        by_contra hp; have := h.verdict; rw [if_neg hsn, if_neg hp, hpe] at this; simp at this
      have hexp : (∃ e ∈ log ++ [⟨.zx, c⟩], Passed e) := (exists_snoc ..).mpr (Or.inl hps)
      split
      · rename_i hfin
        refine ⟨⟨fun e he hc => absurd hc (hnone e he).1, fun e he hc => absurd hc (hnone e he).2, fun _ => ?_⟩, by simp⟩
        unfold parEvidence
        rw [if_pos hexs, if_pos ⟨hexp, by simpa [simsFinished, setEq] using hfin⟩]
        rfl
      · rename_i hfin
        have : Open cfg (setEq r c) (log ++ [⟨.zx, c⟩]) := by
          refine ⟨hnone, ?_, fun _ _ => by simpa [simsFinished, setEq] using hfin⟩
          rw [if_pos hexs]; exact hpne
        exact ⟨this.explained, fun _ => this⟩
    · rename_i hpe
      split
      · rename_i hni'
        have hsn : ¬ ∃ e ∈ log, Suspects e := by
          intro hs; have := h.verdict; rw [if_pos hs, hni'] at this; simp at this
        have hps : ¬ ∃ e ∈ log, Passed e := by
          intro hp; have := h.verdict; rw [if_neg hsn, if_pos hp, hni'] at this; simp at this
        have hexp : ¬ (∃ e ∈ log ++ [⟨.zx, c⟩], Passed e) := by
          rw [exists_snoc]; simp only [hps, hpp, or_self, not_false_eq_true]
        have : Open cfg (setEq r c) (log ++ [⟨.zx, c⟩]) := by
          refine ⟨hnone, ?_, fun _ hp => absurd hp hexp⟩
          rw [if_pos hexs]; exact hpne
        split
        · exact ⟨this.explained, by simp⟩
        · exact ⟨this.explained, fun _ => this⟩
      · rename_i hni'
        have hs : ∃ e ∈ log, Suspects e := by
          by_contra hs
          have := h.verdict
          rw [if_neg hs] at this
          split at this
          · exact hpe this
          · exact hni' this
        have : Open cfg r (log ++ [⟨.zx, c⟩]) := by
          refine ⟨hnone, ?_, ?_⟩
          · rw [if_pos hexs, h.verdict, if_pos hs]
          · intro _ hp
            rw [exists_snoc] at hp
            exact h.pending hs (hp.resolve_right hpp)
        exact ⟨this.explained, fun _ => this⟩
  · rename_i hpne
    have := h.neutral (a := ⟨.zx, c⟩) hc (by simp [GivesUp]) (by simp [Suspects]; exact hpne) (by simp [Passed])
    exact ⟨this.explained, fun _ => this⟩

open Classical in
/-- Handling the end of a simulation that found no difference. -/
theorem handleSim_spec {cfg : Configuration} {r : Results} {log : List Event} (h : Open cfg r log) (c : Criterion)
    (hzx : ∀ e ∈ log, e.kind = .zx → cfg.execution.runZXChecker = true)
    (hni : c ≠ .noInformation) (hne : c ≠ .notEquivalent) :
    ParExplained ((handleSim cfg r).1.performedSimulations = cfg.simulation.maxSims) (log ++ [⟨.simulation, c⟩])
      (handleSim cfg r).1.equivalence ∧
    ((handleSim cfg r).2 ≠ .stop → Open cfg (handleSim cfg r).1 (log ++ [⟨.simulation, c⟩])) := by
  have hcc : ¬ Conclusive ⟨.simulation, c⟩ := hne
  have hgg : ¬ GivesUp ⟨.simulation, c⟩ := by simp [GivesUp]; exact hni
  have hss : ¬ Suspects ⟨.simulation, c⟩ := by simp [Suspects]
  have hpp : Passed ⟨.simulation, c⟩ := ⟨rfl, hni, hne⟩
  have hnone := (forall_snoc log ⟨.simulation, c⟩ fun e => ¬ Conclusive e ∧ ¬ GivesUp e).mpr ⟨h.none, hcc, hgg⟩
  have hexp : (∃ e ∈ log ++ [⟨.simulation, c⟩], Passed e) := (exists_snoc ..).mpr (Or.inr hpp)
  have hexs : (∃ e ∈ log ++ [⟨.simulation, c⟩], Suspects e) ↔ ∃ e ∈ log, Suspects e := by
    rw [exists_snoc]; simp only [hss, or_false]
  have heq : (simPassed r).equivalence = if ∃ e ∈ log, Suspects e then .probablyNotEquivalent else .probablyEquivalent := by
    unfold simPassed
    simp only
    rw [h.verdict]
    by_cases hs : ∃ e ∈ log, Suspects e
    · rw [if_pos hs, if_pos hs]; simp
    · rw [if_neg hs, if_neg hs]
      split <;> simp_all
  have hopen : ∀ r' : Results, r'.equivalence = (simPassed r).equivalence →
      r'.performedSimulations = (simPassed r).performedSimulations →
      (simsFinished cfg (simPassed r) = true → ¬ ∃ e ∈ log, Suspects e) →
      Open cfg r' (log ++ [⟨.simulation, c⟩]) := by
    intro r' h1 h2 h3
    refine ⟨hnone, ?_, ?_⟩
    · rw [h1, heq]
      simp only [hexs]
      rw [if_pos hexp]
    · intro hs _ hf
      rw [hexs] at hs
      rw [h2] at hf
      exact h3 (by simp [simsFinished]; exact hf) hs
  unfold handleSim
  split
  · rename_i hfin
    split
    · rename_i honly
      have := hopen (simPassed r) rfl rfl (fun _ => by
        rintro ⟨e, he, hs⟩
        have := hzx e he hs.1
        unfold Configuration.onlySimulationCheckerConfigured at honly
        rw [this] at honly
        simp at honly)
      exact ⟨this.explained, by simp⟩
    · split
      · rename_i hpne
        have hs : ∃ e ∈ log, Suspects e := by
          by_contra hs; rw [heq, if_neg hs] at hpne; simp at hpne
        refine ⟨⟨fun e he hc => absurd hc (hnone e he).1, fun e he hc => absurd hc (hnone e he).2, fun _ => ?_⟩, by simp⟩
        unfold parEvidence
        rw [if_pos (hexs.mpr hs), if_pos ⟨hexp, by simpa [simsFinished, setEq] using hfin⟩]
        rfl
      · rename_i hpne
        have := hopen (simPassed r) rfl rfl (fun _ hs => hpne (by rw [heq, if_pos hs]))
        exact ⟨this.explained, fun _ => this⟩
  · rename_i hfin
    split
    · have := hopen { simPassed r with startedSimulations := (simPassed r).startedSimulations + 1 } rfl rfl
        (fun hf => absurd hf hfin)
      exact ⟨this.explained, fun _ => this⟩
    · have := hopen (simPassed r) rfl rfl (fun hf => absurd hf hfin)
      exact ⟨this.explained, fun _ => this⟩

/-- Handling any completion. -/
theorem handle_spec {cfg : Configuration} {r : Results} {log : List Event} (h : Open cfg r log) (k : Kind) (c : Criterion)
    (hzx : ∀ e ∈ log, e.kind = .zx → cfg.execution.runZXChecker = true) (hne : k = .zx → c ≠ .notEquivalent) :
    ParExplained ((handle cfg r k c).1.performedSimulations = cfg.simulation.maxSims) (log ++ [⟨k, c⟩])
      (handle cfg r k c).1.equivalence ∧
    ((handle cfg r k c).2 ≠ .stop → Open cfg (handle cfg r k c).1 (log ++ [⟨k, c⟩])) := by
  unfold handle
  split
  · rename_i hni
    subst hni
    split
    · rename_i hk
      subst hk
      have := h.neutral (a := ⟨.zx, .noInformation⟩) (by simp [Conclusive]) (by simp [GivesUp]) (by simp [Suspects])
        (by simp [Passed])
      exact ⟨this.explained, fun _ => this⟩
    · rename_i hk
      exact ⟨explained_final h (Or.inr ⟨⟨hk, rfl⟩, rfl⟩) (by simp), by simp⟩
  · rename_i hni
    split
    · rename_i hneq
      subst hneq
      refine ⟨explained_final h (Or.inl ⟨?_, ?_⟩) (by simp [GivesUp]), by simp⟩
      · cases k <;> simp_all [Conclusive]
      · split <;> rfl
    · rename_i hneq
      cases k with
      | alternating => exact ⟨explained_final h (Or.inl ⟨hni, rfl⟩) (by simp [GivesUp, hni]), by simp⟩
      | construction => exact ⟨explained_final h (Or.inl ⟨hni, rfl⟩) (by simp [GivesUp, hni]), by simp⟩
      | zx => exact handleZX_spec h c
      | simulation => exact handleSim_spec h c hzx hni hneq

/-! ## Provenance -/

theorem mem_definitiveKinds {zxOk : Bool} {c : Configuration} {k : Kind} (h : k ∈ definitiveKinds zxOk c) :
    Enabled (launchCfg zxOk c) k ∧ k ≠ .simulation := by
  unfold definitiveKinds at h
  simp only [List.mem_append] at h
  rcases h with (h | h) | h
  · split at h
    · rename_i hb
      simp at h; subst h
      refine ⟨?_, by simp⟩
      show (launchCfg zxOk c).execution.runAlternatingChecker = true
      unfold launchCfg dropZX dropSims
      split <;> (try split) <;> exact hb
    · simp at h
  · split at h
    · rename_i hb
      simp at h hb; subst h
      exact ⟨hb.1, by simp⟩
    · simp at h
  · split at h
    · rename_i hb
      simp at h hb; subst h
      exact ⟨hb.1, by simp⟩
    · simp at h

theorem mem_launchKinds {zxOk : Bool} {c : Configuration} {k : Kind} (h : k ∈ launchKinds zxOk c) :
    Enabled (launchCfg zxOk c) k := by
  rcases List.mem_append.mp h with h | h
  · exact (mem_definitiveKinds h).1
  · obtain ⟨hn, rfl⟩ := List.mem_replicate.mp h
    unfold simsToStart at hn
    split at hn
    · rename_i hb
      simp at hb
      exact hb.1
    · simp at hn

/-- Every launched checker is enabled. -/
theorem Base.enabled {env : ParEnv} {cfg : Configuration} {s : PState} (h : Base env cfg s) {x : Slot} (hx : x ∈ s.slots) :
    Enabled s.cfg x.kind := by
  rw [h.conf]
  apply mem_launchKinds
  rw [← h.kinds]
  exact List.mem_map_of_mem hx

/-- Invariant about the verdict. -/
structure VInv (env : ParEnv) (s : PState) : Prop where
  prov : ∀ e ∈ s.log, env.may e.kind e.verdict ∧ Enabled s.cfg e.kind
  explained : ParExplained (AllSims s) s.log s.results.equivalence
  openRun : s.done = false ∨ s.timedOut = true → Open s.cfg s.results s.log
  late : s.timedOut = true → s.done = true ∧ s.cfg.execution.timeout > 0
  last : ∀ l1 e l2, s.log = l1 ++ e :: l2 → Conclusive e ∨ GivesUp e → l2 = []

theorem launch_vinv (env : ParEnv) (cfg : Configuration) (res : Results) : VInv env (launch env.zxTransformable cfg res) := by
  have ho : Open (launchCfg env.zxTransformable cfg) (launch env.zxTransformable cfg res).results [] :=
    ⟨by simp, by simp [launch], by simp⟩
  exact ⟨by simp [launch], ho.explained, fun _ => ho, by simp [launch], by simp [launch]⟩

theorem step_vinv {env : ParEnv} {cfg : Configuration} (hz : ¬ env.may .zx .notEquivalent) {s s' : PState} (hb : Base env cfg s)
    (h : VInv env s) (hst : Step env s s') : VInv env s' := by
  rcases step_effect hst with ⟨hr, hl, hc, hd⟩ | ⟨i, x, q, hm, hq, hx, hf, rfl⟩
  · have hfin : AllSims s' = AllSims s := by unfold AllSims; rw [hr, hc]
    refine ⟨?_, ?_, ?_, ?_, ?_⟩
    · rw [hl, hc]; exact h.prov
    · rw [hl, hr, hfin]; exact h.explained
    · rw [hl, hr, hc]
      rcases hd with ⟨h1, h2⟩ | ⟨h1, h2, h3⟩
      · rw [h1, h2]; exact h.openRun
      · intro _; exact h.openRun (Or.inl (hb.ctl.wait h1))
    · rcases hd with ⟨h1, h2⟩ | ⟨h1, h2, h3⟩
      · rw [h1, h2, hc]; exact h.late
      · intro _; rw [hc]; exact ⟨h2, h3.2⟩
    · rw [hl]; exact h.last
  · have hd := hb.ctl.wait hm
    have hpc := hb.head hx hq
    have hmem := List.mem_of_getElem? hx
    have hmay : env.may x.kind x.eq := by
      rcases ((hb.slots x hmem).result (Or.inr hpc) hf).2 with h' | h'
      · rw [hd] at h'; simp at h'
      · exact h'
    have ho := h.openRun (Or.inl hd)
    have hspec := handle_spec ho x.kind x.eq (fun e he hk => by
      have := (h.prov e he).2; rw [hk] at this; exact this)
      (fun hk hc => hz (by rw [← hk, ← hc]; exact hmay))
    refine ⟨?_, hspec.1, ?_, ?_, ?_⟩
    · show ∀ e ∈ s.log ++ [⟨x.kind, x.eq⟩], _
      rw [forall_snoc]
      exact ⟨h.prov, hmay, hb.enabled hmem⟩
    · intro hd'
      refine hspec.2 ?_
      rcases hd' with hd' | hd'
      · simpa [PState.popped] using hd'
      · have h1 : s.timedOut = true := hd'
        have := (h.late h1).1
        rw [hd] at this; simp at this
    · intro ht
      have h1 : s.timedOut = true := ht
      have := (h.late h1).1
      rw [hd] at this; simp at this
    · intro l1 e l2 hl he
      change s.log ++ [⟨x.kind, x.eq⟩] = l1 ++ e :: l2 at hl
      rcases List.eq_nil_or_concat l2 with h2 | ⟨l2', b, rfl⟩
      · exact h2
      · exfalso
        have : s.log ++ [⟨x.kind, x.eq⟩] = (l1 ++ e :: l2') ++ [b] := by rw [hl]; simp
        have hl' := (List.append_inj' this rfl).1
        have hmem' : e ∈ s.log := by rw [hl']; simp
        rcases he with he | he
        · exact (ho.none e hmem').1 he
        · exact (ho.none e hmem').2 he

theorem reachable_vinv {env : ParEnv} {cfg : Configuration} {res : Results} (hz : ¬ env.may .zx .notEquivalent) {s : PState}
    (h : Reachable env cfg res s) : VInv env s :=
  h.induct (launch_vinv env cfg res) fun _ _ hb hv hst => step_vinv hz hb hv hst

end QCEC.Par
