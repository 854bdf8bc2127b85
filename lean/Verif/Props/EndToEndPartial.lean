import Verif.Spec.EndToEndPartial
import Verif.Props.EndToEnd
import Verif.Props.EndToEndMixed
import Verif.Props.ParallelQueue
import Verif.Props.ParallelRelaxed
/-!
# C74: the verdict of a run with `check_partial_equivalence`
-/
namespace QCEC.Props
open QCEC QCEC.DD QCEC.Sem QCEC.Gen QCEC.ZX QCEC.Spec QCEC.Spec.ZX QCEC.Mgr QCEC.Prep QCEC.Par Matrix

variable {m n : Nat}

theorem prob_congr {g g' : List Bool} (h : ∀ q : Fin n, g.getD q.val false = g'.getD q.val false) (v : Basis n → ℂ) (k : Basis n) :
    prob g v k = prob g' v k := by
  unfold prob
  simp only [h]

theorem reported_congr {g g' : List Bool} (h : ∀ q : Fin n, g.getD q.val false = g'.getD q.val false) (v : Basis n → ℂ) (k : Basis n) :
    reported g v k = reported g' v k := by
  unfold reported
  simp only [h, prob_congr h]

theorem partially_congr {g g' anc anc' : List Bool} (h : ∀ q : Fin n, g.getD q.val false = g'.getD q.val false)
    (h' : ∀ q : Fin n, anc.getD q.val false = anc'.getD q.val false) (qc1 qc2 : QC n) (ω1 ω2 : Equiv.Perm (Fin n)) :
    PartiallyEquivalent g anc qc1 ω1 qc2 ω2 ↔ PartiallyEquivalent g' anc' qc1 ω1 qc2 ω2 := by
  unfold PartiallyEquivalent AncillasZero
  simp only [prob_congr h, h']

theorem onBasis_congr {anc anc' g1 g1' g2 g2' : List Bool} (ha : ∀ q : Fin n, anc.getD q.val false = anc'.getD q.val false)
    (h1 : ∀ q : Fin n, g1.getD q.val false = g1'.getD q.val false) (h2 : ∀ q : Fin n, g2.getD q.val false = g2'.getD q.val false)
    (qc1 qc2 : QC n) (ω1 ω2 : Equiv.Perm (Fin n)) :
    BasisEquivalent anc g1 g2 qc1 ω1 qc2 ω2 ↔ BasisEquivalent anc' g1' g2' qc1 ω1 qc2 ω2 := by
  unfold BasisEquivalent AncillasZero
  simp only [reported_congr h1, reported_congr h2, ha]

/-! ## Sets of inputs -/

theorem partially_covers {S : PSetting m n} {f g : List Bool} (h : Covers n f g) (hp : S.Partially g) : S.Partially f :=
  fun v hv => hp v (zero_covers h hv)

theorem onBasis_covers {S : PSetting m n} {f g : List Bool} (h : Covers n f g) (hp : S.OnBasis g) : S.OnBasis f :=
  fun y hy => hp y (zero_covers h hy)

theorem unread_get (S : PSetting m n) (q : Fin n) :
    S.unread.getD q.val false = (S.qc1.garbage.getD q.val false && S.qc2.garbage.getD q.val false) := by
  rw [PSetting.unread, marks_get]

theorem onBasis_of_partially (S : PSetting m n) {anc : List Bool} (h : S.Partially anc) : S.OnBasis anc := partially_basis _ _ _ _ _ _ h

/-! ## Garbage qubits one of the circuits does not use -/

/-- An idle qubit that is `|0⟩` at the beginning is so at the end. -/
theorem idle_output_zero {qc : QC n} {ω : Equiv.Perm (Fin n)} {q : Fin n} (hq : Idle qc ω q) {v : Basis n → ℂ} (hv : ∀ x, v x ≠ 0 → x q = false)
    (x : Basis n) (hx : output qc ω v x ≠ 0) : x q = false := by
  rw [output_eq] at hx
  obtain ⟨y, hy⟩ : ∃ y, funcOf qc ω x y * v y ≠ 0 := by
    by_contra hn
    push Not at hn
    exact hx (Finset.sum_eq_zero fun y _ => hn y)
  rw [hq.preserves x y (left_ne_zero_of_mul hy)]
  exact hv y (right_ne_zero_of_mul hy)

/-- Not measuring qubits that are `|0⟩` and reporting them as 0 is the same as measuring them. -/
theorem reported_unused {g u : List Bool} {w : Basis n → ℂ}
    (h : ∀ q : Fin n, g.getD q.val false = u.getD q.val false ∨ (g.getD q.val false = true ∧ u.getD q.val false = false ∧ ∀ x, w x ≠ 0 → x q = false))
    (k : Basis n) : reported g w k = reported u w k := by
  have h0 : ∀ q : Fin n, u.getD q.val false = true → g.getD q.val false = true := by
    intro q hq
    rcases h q with e | ⟨e, _⟩
    · rw [e, hq]
    · exact e
  unfold reported
  by_cases ku : ∀ q : Fin n, u.getD q.val false = true → k q = false
  · rw [if_pos ku]
    by_cases kg : ∀ q : Fin n, g.getD q.val false = true → k q = false
    · rw [if_pos kg]
      unfold prob
      refine Finset.sum_congr rfl fun x _ => ?_
      by_cases hx : w x = 0
      · simp [hx]
      · have e : (∀ q : Fin n, g.getD q.val false = false → x q = k q) ↔ ∀ q : Fin n, u.getD q.val false = false → x q = k q := by
          constructor
          · intro hg q hq
            rcases h q with e | ⟨e, _, hz⟩
            · exact hg q (by rw [e, hq])
            · rw [hz x hx, kg q e]
          · intro hu q hq
            refine hu q ?_
            cases e : u.getD q.val false
            · rfl
            · rw [h0 q e] at hq
              exact absurd hq (by simp)
        simp only [e]
    · rw [if_neg kg]
      push Not at kg
      obtain ⟨q, hq, hk⟩ := kg
      unfold prob
      refine (Finset.sum_eq_zero fun x _ => ?_).symm
      split
      · rename_i hx
        rcases h q with e | ⟨_, e, hz⟩
        · exact absurd (ku q (by rw [← e, hq])) hk
        · by_cases hw : w x = 0
          · simp [hw]
          · rw [← hx q e, hz x hw] at hk
            exact absurd rfl hk
      · rfl
  · rw [if_neg ku, if_neg fun kg => ku fun q hq => kg q (h0 q hq)]

theorem reported_unread (S : PSetting m n) {anc : List Bool} {v : Basis n → ℂ} (hv : AncillasZero anc v)
    (ha : ∀ q : Fin n, m ≤ q.val → S.qc1.ancillary.getD q.val false = true → S.qc2.ancillary.getD q.val false = true → anc.getD q.val false = true)
    (k : Basis n) : reported S.qc1.garbage (output S.qc1 S.ω1 v) k = reported S.unread (output S.qc1 S.ω1 v) k ∧
      reported S.qc2.garbage (output S.qc2 S.ω2 v) k = reported S.unread (output S.qc2 S.ω2 v) k := by
  constructor
  · refine reported_unused (fun q => ?_) k
    rw [unread_get]
    rcases S.garbage q with e | ⟨h0, h1, h2, ⟨hg, hi⟩ | ⟨hg, hi⟩⟩
    · left; rw [e, Bool.and_self]
    · rw [hg, Bool.true_and]
      cases e : S.qc2.garbage.getD q.val false
      · exact Or.inr ⟨rfl, rfl, idle_output_zero hi fun x hx => hv x hx q (ha q h0 h1 h2)⟩
      · exact Or.inl rfl
    · left; rw [hg, Bool.and_true]
  · refine reported_unused (fun q => ?_) k
    rw [unread_get]
    rcases S.garbage q with e | ⟨h0, h1, h2, ⟨hg, hi⟩ | ⟨hg, hi⟩⟩
    · left; rw [e, Bool.and_self]
    · left; rw [hg, Bool.true_and]
    · rw [hg, Bool.and_true]
      cases e : S.qc1.garbage.getD q.val false
      · exact Or.inr ⟨rfl, rfl, idle_output_zero hi fun x hx => hv x hx q (ha q h0 h1 h2)⟩
      · exact Or.inl rfl

/-! ## Answers -/

/-- What the single answers mean. -/
def PAnswerMeans (S : PSetting m n) (quiet : Bool) (k : Kind) (c : Criterion) : Prop :=
  match k with
  | .simulation => (c = .notEquivalent → ¬ S.Partially (flags m n)) ∧ (quiet = true → c ≠ .noInformation)
  | .alternating => (quiet = false ∧ c = .noInformation) ∨
      ((c = .equivalent ∨ c = .equivalentUpToGlobalPhase ∨ c = .notEquivalent) ∧ (c ≠ .notEquivalent → S.Partially (commonAnc S.toMixed)) ∧
        (S.OneIdle → c = .notEquivalent → ¬ S.Partially (commonAnc S.toMixed)))
  | .construction => (quiet = false ∧ c = .noInformation) ∨ ((c = .equivalent ∨ c = .equivalentUpToGlobalPhase ∨ c = .notEquivalent) ∧
      (S.SameFlags → (c = .equivalent ∧ S.OnBasis (commonAnc S.toMixed)) ∨ (c = .notEquivalent ∧ ¬ S.OnBasis (commonAnc S.toMixed))))
  | .zx => c ∈ [.equivalent, .equivalentUpToGlobalPhase, .probablyNotEquivalent, .noInformation] ∧
      (c = .equivalent ∨ c = .equivalentUpToGlobalPhase → S.Partially (flags m n))

theorem partial_alternating_means (S : PSetting m n) {quiet : Bool} {stop : Nat → Bool} (hm : Mono stop)
    (hq : quiet = true → ∀ i, stop i = false) {fuel : Nat} (hf : S.qc1.ops.length + S.qc2.ops.length + 2 ≤ fuel) {c s}
    (h : runAlt (exactMatrix n reduceGarbageMat) S.T.isId S.opEq S.schA (altCheck true S.G.closeG S.T.close S.T.wOne n S.qc1 S.qc2) stop
        .noInformation S.qc1 S.qc2 (altInit (exactMatrix n reduceGarbageMat) 1 n S.qc1 S.qc2) fuel = .ok (c, s)) :
    PAnswerMeans S quiet .alternating c := by
  obtain ⟨v, s', hr, ho⟩ := alternating_outcome reduceGarbageMat S.qc1 S.qc2 S.ω1 S.ω2 S.wf1 S.wf2 S.T S.opEq S.schA S.safe.1
    (S.confA.configured S.safe) (altCheck true S.G.closeG S.T.close S.T.wOne n S.qc1 S.qc2) stop hm .noInformation fuel hf
  rw [hr] at h
  cases h
  rcases ho with ⟨hs, hv⟩ | ⟨_, hd, hv⟩
  · refine Or.inl ⟨?_, hv⟩
    cases quiet with
    | false => rfl
    | true => rw [hq rfl] at hs; cases hs
  · right
    have hi : altInit (exactMatrix n reduceGarbageMat) 1 n S.qc1 S.qc2 = ancProj (altAncillary n S.qc1.ancillary S.qc2.ancillary) := by
      simp [altInit, exactMatrix, reduceAncillae]
    have hg : ∀ q : Fin n, (altGarbage n S.qc1.garbage S.qc2.garbage).getD q.val false = S.unread.getD q.val false := by
      intro q
      rw [altGarbage_flag, unread_get]
    have hcong := partially_congr hg (fun q => rfl) S.qc1 S.qc2 S.ω1 S.ω2 (anc := commonAnc S.toMixed)
    refine ⟨?_, fun hne => ?_, fun hidle hne hp => ?_⟩
    · rw [hv]
      unfold altCheck altVerdict
      simp only [if_true]
      split
      · split <;> simp
      · simp
    · rw [hv, altCheck_partial, hd, hi] at hne
      exact hcong.1 (block_sound _ _ S.qc1 S.qc2 S.ω1 S.ω2 S.wf1.ops S.wf2.ops hne)
    · refine absurd hne ?_
      show c ≠ .notEquivalent
      rw [hv, altCheck_partial, hd, hi]
      refine block_complete _ _ S.qc1 S.qc2 S.ω1 S.ω2 S.wf1.ops S.wf2.ops ?_ (hcong.2 hp)
      rcases hidle with h | h
      · refine Or.inl fun q hq => ?_
        rw [altAncillary_flag, Bool.and_eq_true] at hq
        exact h q hq.1 hq.2
      · refine Or.inr fun q hq => ?_
        rw [altAncillary_flag, Bool.and_eq_true] at hq
        exact h q hq.1 hq.2

theorem partial_construction_means (S : PSetting m n) {quiet : Bool} {stop : Nat → Bool} (hm : Mono stop)
    (hq : quiet = true → ∀ i, stop i = false) {fuel : Nat} (hf : S.qc1.ops.length + S.qc2.ops.length + 2 ≤ fuel) {c s}
    (h : runTwo (exactMatrix n reduceGarbageMat) S.schC true (equalsMatrix S.T.ptrEq S.T.wEq S.T.close fun e f => e * fᴴ) stop
        .noInformation S.qc1 S.qc2 (constructionInit (exactMatrix n reduceGarbageMat) 1 S.qc1)
        (constructionInit (exactMatrix n reduceGarbageMat) 1 S.qc2) fuel = .ok (c, s)) :
    PAnswerMeans S quiet .construction c := by
  obtain ⟨hs⟩ := S.confC
  obtain ⟨s', ⟨h0, hr⟩ | ⟨_, hr, _⟩⟩ := runTwo_spec (exactMatrix n reduceGarbageMat) S.schC true
    (equalsMatrix S.T.ptrEq S.T.wEq S.T.close fun e f => e * fᴴ) stop hm .noInformation S.qc1 S.qc2 hs.good
    (constructionInit (exactMatrix n reduceGarbageMat) 1 S.qc1) (constructionInit (exactMatrix n reduceGarbageMat) 1 S.qc2) fuel hf
  · rw [hr] at h
    cases h
    refine Or.inl ⟨?_, rfl⟩
    cases quiet with
    | false => rfl
    | true => rw [hq rfl] at h0; cases h0
  · rw [hr] at h
    cases h
    right
    refine ⟨equalsMatrix_three .., fun hsame => ?_⟩
    obtain ⟨v, s2, hr2, hv1, hv2⟩ := construction_partial_exact S.qc1 S.qc2 S.ω1 S.ω2 S.wf1 S.wf2 S.T S.schC hs .noInformation hsame
    obtain ⟨s3, ⟨h0, _⟩ | ⟨_, hr3, _⟩⟩ := runTwo_spec (exactMatrix n reduceGarbageMat) S.schC true
      (equalsMatrix S.T.ptrEq S.T.wEq S.T.close fun e f => e * fᴴ) (fun _ => false) (fun _ _ _ h => h) .noInformation S.qc1 S.qc2 hs.good
      (constructionInit (exactMatrix n reduceGarbageMat) 1 S.qc1) (constructionInit (exactMatrix n reduceGarbageMat) 1 S.qc2) _
      (Nat.le_refl _)
    · exact absurd h0 (by simp)
    · rw [hr2] at hr3
      cases hr3
      have hcong : BasisEquivalent S.qc1.ancillary S.qc1.garbage S.qc2.garbage S.qc1 S.ω1 S.qc2 S.ω2 ↔ S.OnBasis (commonAnc S.toMixed) := by
        have hc : ∀ q : Fin n, S.qc1.ancillary.getD q.val false = (commonAnc S.toMixed).getD q.val false := fun q => by
          rw [commonAnc, altAncillary_flag, ← hsame q, Bool.and_self]
        have hz : ∀ v : Basis n → ℂ, AncillasZero S.qc1.ancillary v ↔ AncillasZero (commonAnc S.toMixed) v := by
          intro v
          unfold AncillasZero
          simp only [hc]
        unfold PSetting.OnBasis BasisEquivalent
        refine forall_congr' fun y => ?_
        rw [← hz]
        refine forall_congr' fun hy => forall_congr' fun k => ?_
        obtain ⟨e1, e2⟩ := reported_unread S hy (fun q _ h _ => h) k
        rw [e1, e2]
      rw [hcong] at hv1 hv2
      by_cases hb : S.OnBasis (commonAnc S.toMixed)
      · exact Or.inl ⟨hv1.2 hb, hb⟩
      · exact Or.inr ⟨hv2.2 hb, hb⟩

theorem partial_simRun_means (S : PSetting m n) {quiet : Bool} {prev c : Criterion}
    (hp : prev = .notEquivalent → ¬ S.Partially (flags m n)) (h : PSimRun S.toPBase quiet prev c) : PAnswerMeans S quiet .simulation c := by
  obtain ⟨R, g, g', st, x, stop, fuel, s, hgen, hden, hm, hq, hf, hrun⟩ := h
  obtain ⟨hs⟩ := S.confS
  obtain ⟨hnorm, hanc⟩ := stimulus_state S.data hgen S.cliff_normalised hden
  obtain ⟨s', ⟨h0, hr⟩ | ⟨h0, hr, _⟩⟩ := runTwo_spec (exactVector n reduceGarbageVec) S.schS true
    (equalsVector S.V.ptrEq S.V.wEq S.V.realClose S.V.fidClose) stop hm prev S.qc1 S.qc2 hs.good x x fuel hf
  · rw [hr] at hrun
    cases hrun
    refine ⟨hp, fun hqt => ?_⟩
    rw [hq hqt] at h0; cases h0
  · rw [hr] at hrun
    cases hrun
    obtain ⟨v, s2, hr2, hv, _⟩ := simulation_partial_meaning S.qc1 S.qc2 S.ω1 S.ω2 S.wf1 S.wf2 S.V S.threshold S.schS hs prev x hnorm
    obtain ⟨s3, ⟨h0, _⟩ | ⟨_, hr3, _⟩⟩ := runTwo_spec (exactVector n reduceGarbageVec) S.schS true
      (equalsVector S.V.ptrEq S.V.wEq S.V.realClose S.V.fidClose) (fun _ => false) (fun _ _ _ h => h) prev S.qc1 S.qc2 hs.good x x _
      (Nat.le_refl _)
    · exact absurd h0 (by simp)
    · rw [hr2] at hr3
      cases hr3
      refine ⟨fun hne hpart => ?_, fun _ => ?_⟩
      · obtain ⟨k, hk⟩ := hv hne
        apply hk
        obtain ⟨e1, e2⟩ := reported_unread S hanc (fun q hq _ _ => by rw [flags_get m n S.data]; exact decide_eq_true hq) k
        rw [e1, e2]
        unfold reported
        rw [hpart x hanc k]
      · rcases equalsVector_cases S.V (finalObject (exactVector n reduceGarbageVec) true S.qc1 x)
          (finalObject (exactVector n reduceGarbageVec) true S.qc2 x) with h | h | h <;> rw [h] <;> simp

/-- **C74**: what the answers of the single checkers mean. -/
theorem partial_answer_means (S : PSetting m n) {quiet : Bool} {k : Kind} {c : Criterion} (h : PAnswer S.toPBase quiet k c) :
    PAnswerMeans S quiet k c := by
  induction h with
  | alternating stop hm hq fuel hf c s h => exact partial_alternating_means S hm hq hf h
  | construction stop hm hq fuel hf c s h => exact partial_construction_means S hm hq hf h
  | simulation c h => exact partial_simRun_means S (by simp) h
  | simulationAgain prev c _ h ih => exact partial_simRun_means S ih.1 h
  | zx c h =>
    have := mixed_answer_means S.toMixed (by simp) h
    refine ⟨this.1, ?_⟩
    rintro (h | h)
    · exact same_partially _ _ _ _ _ _ ⟨1, by simp, this.2.equivalent h⟩
    · exact same_partially _ _ _ _ _ _ (this.2.phase h).1

theorem partial_conclusive (S : PSetting m n) {cfg : Configuration} {quiet : Bool} {e : Event} (hen : Enabled cfg e.kind) (hc : Conclusive e)
    (h : PAnswerMeans S quiet e.kind e.verdict) : PMeaning S cfg e.verdict := by
  have lo := some_covers_common S.toMixed cfg.execution.runZXChecker
  have hi := common_covers_both S.toMixed cfg.execution.runSimulationChecker
  rcases e with ⟨k, v⟩
  cases k <;> simp only [Conclusive, PAnswerMeans] at hc h hen ⊢
  · subst hc
    refine ⟨fun _ _ _ hp => h.1 rfl (partially_covers ?_ hp), by simp, by simp, by simp⟩
    rw [show cfg.execution.runSimulationChecker = true from hen]
    exact last_covers_both S.toMixed
  · rcases h with h | ⟨h1, h2, h3⟩
    · exact absurd h.2 hc
    · have pos : v = .equivalent ∨ v = .equivalentUpToGlobalPhase → S.Partially (S.someAnc cfg.execution.runZXChecker) := by
        rintro (h | h) <;> exact partially_covers lo (h2 (by simp [h]))
      refine ⟨fun hv ho _ hp => h3 (ho hen) hv (partially_covers hi hp), fun hv _ => onBasis_of_partially S (pos hv), fun hv _ => pos hv, ?_⟩
      rcases h1 with h | h | h <;> simp [h]
  · rcases h with h | ⟨h3, h⟩
    · exact absurd h.2 hc
    · refine ⟨fun hv _ hs hp => ?_, fun hv hs => ?_, fun _ hn => absurd hen hn, ?_⟩
      · rcases h (hs hen) with h | h
        · rw [h.1] at hv; exact absurd hv (by simp)
        · exact h.2 (onBasis_of_partially S (partially_covers hi hp))
      · rcases h (hs hen) with h | h
        · exact onBasis_covers lo h.2
        · rw [h.1] at hv; simp at hv
      · rcases h3 with h | h | h <;> simp [h]
  · have hle : Covers n (S.someAnc cfg.execution.runZXChecker) (flags m n) := by
      rw [show cfg.execution.runZXChecker = true from hen]
      exact some_covers_last S.toMixed
    have pos := fun hv => partially_covers hle (h.2 hv)
    refine ⟨?_, fun hv _ => onBasis_of_partially S (pos hv), fun hv _ => pos hv, ?_⟩
    · rcases hc with h | h <;> simp [h]
    · rcases hc with h | h <;> simp [h]

theorem partial_default (S : PSetting m n) (cfg : Configuration) {v : Criterion}
    (h : v = .noInformation ∨ v = .probablyEquivalent ∨ v = .probablyNotEquivalent) : PMeaning S cfg v := by
  rcases h with h | h | h <;> subst h <;> exact ⟨by simp, by simp, by simp, by simp⟩

/-- **C74** (sequential): if the checkers answer what they compute on the two circuits with partial equivalence switched on – interrupted
or not, whenever the timeout fires – then the verdict of a run that returns has the meaning of `PMeaning`. -/
theorem partial_sequential_verdict (S : PSetting m n) {env : Env} {fuel : Nat} {s s' : State} (hm : mode env s.cfg = .sequential)
    (h : run env fuel s = some (.returned s'))
    (hans : ∀ e : Event, FromEnv env e → Enabled s.cfg e.kind → PAnswer S.toPBase false e.kind e.verdict) :
    PMeaning S s.cfg s'.results.equivalence := by
  obtain ⟨hx, hp, _⟩ := sequential_verdict_explained hm h
  by_cases hc : ∃ e ∈ s'.log, Conclusive e
  · obtain ⟨e, he, hce⟩ := hc
    rw [hx.1 e he hce]
    exact partial_conclusive S (hp e he).2 hce (partial_answer_means S (hans e (hp e he).1 (hp e he).2))
  · rw [hx.2 fun e he hce => hc ⟨e, he, hce⟩]
    exact partial_default S _ (evidence_default _)

theorem partial_adjust_zx (S : PSetting m n) {quiet : Bool} {env : ParEnv} {cfg : Configuration}
    (hans : ∀ k c, Enabled cfg k → env.may k c → PAnswer S.toPBase quiet k c) : ZXAnswers (adjust cfg env) := by
  rintro c (⟨he, hc⟩ | ⟨_, rfl⟩)
  · have := (partial_answer_means S (hans .zx c he hc)).1
    simpa using this
  · simp

/-- **C74** (parallel): the same for every schedule of the threads. -/
theorem partial_parallel_verdict (S : PSetting m n) {env : ParEnv} {cfg : Configuration} {res : Results} {s : PState}
    (h : Reachable env cfg res s) (hr : s.main = .ended .returned)
    (hans : ∀ k c, Enabled cfg k → env.may k c → PAnswer S.toPBase false k c) : PMeaning S cfg s.results.equivalence := by
  obtain ⟨hx, hp, _⟩ := parallel_verdict_explained (partial_adjust_zx S hans) (adjust_reachable h) hr
  by_cases hc : ∃ e ∈ s.log, Conclusive e
  · obtain ⟨e, he, hce⟩ := hc
    rw [hx.1 e he hce]
    exact partial_conclusive S (hp e he).2 hce
      (partial_answer_means S (hans _ _ (hp e he).2 ((adjust_may (hp e he).2 _).mp (hp e he).1)))
  · have hn : ∀ e ∈ s.log, ¬ Conclusive e := fun e he hce => hc ⟨e, he, hce⟩
    by_cases hg : ∃ e ∈ s.log, GivesUp e
    · obtain ⟨e, he, hge⟩ := hg
      rw [hx.2.1 e he hge]
      exact partial_default S _ (Or.inl rfl)
    · rw [hx.2.2 fun e he => ⟨hn e he, fun hge => hg ⟨e, he, hge⟩⟩]
      exact partial_default S _ (parEvidence_default _ _)

/-- A conclusive answer of a checker nobody interrupted decides partial equivalence (no construction checker). -/
theorem partial_conclusive_decides (S : PSetting m n) {cfg : Configuration} {e : Event} (hek : Enabled cfg e.kind)
    (hcon : ¬ Enabled cfg .construction) (hpl : S.Plain) (hidle : S.OneIdle) (hce : Conclusive e) (hme : PAnswerMeans S true e.kind e.verdict) :
    (e.verdict = .notEquivalent ↔ ¬ S.Partially (flags m n)) ∧
    (e.verdict = .equivalent ∨ e.verdict = .equivalentUpToGlobalPhase ↔ S.Partially (flags m n)) := by
  have hM := partial_conclusive S (cfg := cfg) hek hce hme
  have hcases : e.verdict = .equivalent ∨ e.verdict = .equivalentUpToGlobalPhase ∨ e.verdict = .notEquivalent := by
    rcases e with ⟨k, v⟩
    cases k <;> simp only [Conclusive, PAnswerMeans] at hce hme ⊢
    · exact Or.inr (Or.inr hce)
    · rcases hme with h | h
      · exact absurd h.1 (by simp)
      · exact h.1
    · exact absurd hek hcon
    · rcases hce with h | h <;> simp [h]
  have c1 : Covers n (S.bothAnc cfg.execution.runSimulationChecker) (flags m n) := by
    intro q hq
    rw [Mixed.bothAnc, marks_get, (hpl q).1, (hpl q).2, hq]
    rw [flags_get m n S.data] at hq
    simp [of_decide_eq_true hq]
  have c2 : Covers n (flags m n) (S.someAnc cfg.execution.runZXChecker) := by
    intro q hq
    rw [Mixed.someAnc, marks_get, (hpl q).1, (hpl q).2, flags_get m n S.data] at hq
    rw [flags_get m n S.data]
    revert hq
    cases decide (m ≤ q.val) <;> simp
  have hneg := fun h hp => hM.negative h (fun _ => hidle) (fun h => absurd h hcon) (partially_covers c1 hp)
  have hpos := fun h => partially_covers c2 (hM.positive h hcon)
  refine ⟨⟨hneg, fun hnp => ?_⟩, ⟨hpos, fun hp => ?_⟩⟩
  · rcases hcases with h | h | h
    · exact absurd (hpos (Or.inl h)) hnp
    · exact absurd (hpos (Or.inr h)) hnp
    · exact h
  · rcases hcases with h | h | h
    · exact Or.inl h
    · exact Or.inr h
    · exact absurd hp (hneg h)

/-- **C74** (the question is decided): with the alternating but not the construction checker switched on, no timeout and no exception, and
circuits with the same ancillary qubits, the last ones, of which one acts on no ancillary qubit, a run in which nobody interrupts the checkers returns, and its verdict is
`NotEquivalent` for circuits that are not partially equivalent and `Equivalent` or `EquivalentUpToGlobalPhase` for those that are. -/
theorem partial_sequential_decides (S : PSetting m n) {env : Env} {fuel : Nat} {s : State} (hm : mode env s.cfg = .sequential)
    (hc : CountersOk s) (ht : ¬ s.cfg.execution.timeout > 0) (hfuel : s.cfg.simulation.maxSims < fuel)
    (hen : Enabled s.cfg .alternating) (hcon : ¬ Enabled s.cfg .construction) (hpl : S.Plain) (hidle : S.OneIdle) (hfail : ¬ SomeCheckerFails env s.cfg)
    (hans : ∀ e : Event, FromEnv env e → Enabled s.cfg e.kind → PAnswer S.toPBase true e.kind e.verdict) :
    ∃ s', run env fuel s = some (.returned s') ∧
      (s'.results.equivalence = .notEquivalent ↔ ¬ S.Partially (flags m n)) ∧
      (s'.results.equivalence = .equivalent ∨ s'.results.equivalence = .equivalentUpToGlobalPhase ↔ S.Partially (flags m n)) := by
  have hg : ¬ SomeSimGivesUp env s.cfg := by
    rintro ⟨he, k, hk⟩
    exact (partial_answer_means S (hans ⟨.simulation, .noInformation⟩ ⟨k, hk⟩ he)).2 rfl rfl
  obtain ⟨s', hs'⟩ := sequential_returns_partial env s hm hc hfail hg fuel hfuel
  refine ⟨s', hs', ?_⟩
  obtain ⟨hx, hp, _⟩ := sequential_verdict_explained hm hs'
  have hmean : ∀ e ∈ s'.log, PAnswerMeans S true e.kind e.verdict := fun e he =>
    partial_answer_means S (hans e (hp e he).1 (hp e he).2)
  have hex : ∃ e ∈ s'.log, Conclusive e := by
    by_contra hno
    have hn : ∀ e ∈ s'.log, ¬ Conclusive e := fun e he hce => hno ⟨e, he, hce⟩
    obtain ⟨e, he, hke⟩ := sequential_all_consulted hm ht hs' hn (fun e he hk => by
      have := hmean e he
      rw [hk] at this
      exact this.2 rfl) .alternating (by simp) hen (by simp)
    have hme := hmean e he
    rw [hke] at hme
    rcases hme with hme | hme
    · exact absurd hme.1 (by simp)
    · apply hn e he
      rcases e with ⟨ke, ve⟩
      cases hke
      rcases hme.1 with h | h | h <;> simp only at h <;> subst h <;> simp [Conclusive]
  obtain ⟨e, he, hce⟩ := hex
  rw [hx.1 e he hce]
  exact partial_conclusive_decides S (hp e he).2 hcon hpl hidle hce (hmean e he)

/-- **C74** (the question is decided, parallel): with the alternating but not the construction checker switched on and circuits of which one
acts on no ancillary qubit, a run that returns before its deadline and in which nobody interrupts the checkers as long as the main thread
waits decides partial equivalence – except that it gives up, with `NoInformation`, as soon as all simulations have passed and the ZX
checker has expressed a doubt. -/
theorem partial_parallel_decides (S : PSetting m n) {env quiet : ParEnv} {cfg : Configuration} {res : Results} {s : PState}
    (hq : quiet.zxTransformable = env.zxTransformable) (hrun : CalmSteps env quiet (launch env.zxTransformable cfg res) s)
    (hr : s.main = .ended .returned) (ht : s.timedOut = false) (hen : Enabled cfg .alternating) (hcon : ¬ Enabled cfg .construction)
    (hpl : S.Plain) (hidle : S.OneIdle) (hans : ∀ k c, Enabled cfg k → quiet.may k c → PAnswer S.toPBase true k c) :
    ((s.results.equivalence = .notEquivalent ↔ ¬ S.Partially (flags m n)) ∧
      (s.results.equivalence = .equivalent ∨ s.results.equivalence = .equivalentUpToGlobalPhase ↔ S.Partially (flags m n))) ∨
    (s.results.equivalence = .noInformation ∧ (∃ e ∈ s.log, Suspects e) ∧ (∃ e ∈ s.log, Passed e) ∧
      s.results.performedSimulations = cfg.simulation.maxSims) := by
  have hz := partial_adjust_zx S hans
  obtain ⟨s1, h1, hd, hl, hres, hc, hto, _⟩ := CalmSteps.quiet (env := adjust cfg env) (quiet := adjust cfg quiet) hq (adjust_calm hrun)
  have hdone : s1.done = true := by rw [hd]; exact returned_done hrun.steps hr
  have hv := reachable_vinv hz.never h1
  have hb := reachable_base h1
  rw [← hres, ← hl]
  have henabled : ∀ e ∈ s1.log, Enabled cfg e.kind := fun e he => enabled_of_launch (hb.conf ▸ (hv.prov e he).2)
  have hmean : ∀ e ∈ s1.log, PAnswerMeans S true e.kind e.verdict := fun e he =>
    partial_answer_means S (hans _ _ (henabled e he) ((adjust_may (henabled e he) _).mp (hv.prov e he).1))
  obtain ⟨n1, n2, n3⟩ := not_only (zxOk := (adjust cfg quiet).zxTransformable) (Or.inl hen)
  rw [← hb.conf] at n2 n3
  have hnever : ∀ e ∈ s1.log, ¬ GivesUp e := by
    rintro ⟨k, v⟩ he ⟨hk, hv'⟩
    have := hmean _ he
    have hek := henabled _ he
    simp only at hk hv' hek
    subst hv'
    cases k <;> simp only [PAnswerMeans] at this
    · exact absurd rfl (this.2 trivial)
    · rcases this with h | h
      · exact absurd h.1 (by simp)
      · simp at h
    · exact absurd hek hcon
    · exact hk rfl
  by_cases hex : ∃ e ∈ s1.log, Conclusive e
  · obtain ⟨e, he, hce⟩ := hex
    left
    rw [hv.explained.1 e he hce]
    exact partial_conclusive_decides S (henabled e he) hcon hpl hidle hce (hmean e he)
  · rcases stop_reason_open hz h1 hdone with h | h | h | ⟨e, he, h⟩ | h | h | h
    · rw [hto, ht] at h; simp at h
    · rw [n1] at h; simp at h
    · exact absurd h hex
    · exact absurd h (hnever e he)
    · rw [n2] at h; simp at h
    · rw [n3] at h; simp at h
    · right
      have hms : s1.cfg.simulation.maxSims = cfg.simulation.maxSims := by rw [hb.conf, launchCfg_maxSims]
      refine ⟨?_, h.1, h.2.1, by rw [h.2.2, hms]⟩
      rw [hv.explained.2.2 fun e he => ⟨fun hce => hex ⟨e, he, hce⟩, hnever e he⟩]
      unfold parEvidence
      rw [if_pos h.1, if_pos ⟨h.2.1, h.2.2⟩]

/-! ## With the real queue and with late visibility -/

/-- **C74** (parallel, threads using the real queue). -/
theorem partial_composed_verdict (S : PSetting m n) {env : ParEnv} {D : Nat} {cfg : Configuration} {res : Results} {c : ParQ.CState}
    (h : ParQ.Reachable env D cfg res c) (hr : c.p.main = .ended .returned)
    (hans : ∀ k c, Enabled cfg k → env.may k c → PAnswer S.toPBase false k c) : PMeaning S cfg c.p.results.equivalence :=
  partial_parallel_verdict S (composed_refines h) hr hans

/-- **C74** (parallel, plain variables becoming visible late). -/
theorem partial_delayed_verdict (S : PSetting m n) {env : ParEnv} {cfg : Configuration} {res : Results} {s : PState}
    (h : ParR.RReachable env cfg res s) (hr : s.main = .ended .returned)
    (hans : ∀ k c, Enabled cfg k → env.may k c → PAnswer S.toPBase false k c) : PMeaning S cfg s.results.equivalence := by
  obtain ⟨t, ht, hm, hres⟩ := (delayed_same_outcomes env cfg res _ _).1 ⟨s, h, hr, rfl⟩
  rw [← hres]
  exact partial_parallel_verdict S ht hm hans

/-- **C61** (parallel, threads using the real queue): the verdict is true of the circuits. -/
theorem composed_verdict_true (S : Setting m n) {env : ParEnv} {D : Nat} {cfg : Configuration} {res : Results} {c : ParQ.CState}
    (h : ParQ.Reachable env D cfg res c) (hr : c.p.main = .ended .returned)
    (hans : ∀ k c, Enabled cfg k → env.may k c → Answer S false k c) : Meaning S c.p.results.equivalence :=
  parallel_verdict_true S (composed_refines h) hr hans

/-- **C61** (parallel, plain variables becoming visible late). -/
theorem delayed_verdict_true (S : Setting m n) {env : ParEnv} {cfg : Configuration} {res : Results} {s : PState}
    (h : ParR.RReachable env cfg res s) (hr : s.main = .ended .returned)
    (hans : ∀ k c, Enabled cfg k → env.may k c → Answer S false k c) : Meaning S s.results.equivalence := by
  obtain ⟨t, ht, hm, hres⟩ := (delayed_same_outcomes env cfg res _ _).1 ⟨s, h, hr, rfl⟩
  rw [← hres]
  exact parallel_verdict_true S ht hm hans

end QCEC.Props
