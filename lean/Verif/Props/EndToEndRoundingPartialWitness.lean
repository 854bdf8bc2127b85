import Verif.Props.EndToEndRoundingPartial
import Verif.Props.EndToEndRoundingWitness
import Verif.Props.RoundingPartialWitness
/-!
# C93: runs of the manager

A package that makes every product too large by one millionth; `X(1)` against no gate, with qubit 1 or qubit 0 not measured.
-/
namespace QCEC.Props
open QCEC QCEC.DD QCEC.Sem QCEC.Gen QCEC.ZX QCEC.Spec QCEC.Spec.ZX QCEC.Mgr QCEC.Prep Matrix

namespace RoundingPartialCases
open Inexactly

theorem reducingVector_eq_rounded : RoundedVector (reducingVector 2 (1 / 10 ^ 6)) (fun d => d) (1 / 10 ^ 6) := reducingVector_rounded 2 (by norm_num)

/-- The two circuits with `g` not measured, and the checkers. -/
noncomputable def unreadPair (g : List Bool) : InexactPartial 2 2 where
  toInexact := { pair (flipped g) (blank g) (flipped_wf g) (blank_wf g) with
    bV := reducingVector 2 (1 / 10 ^ 6)
    roundV := reducingVector_eq_rounded }
  G := sharpGarbage 2 (1 / 1000)
  roundG := reducingVector_garbage 2 (by norm_num)
  garbage := fun _ => Or.inl rfl

theorem unreadPair_safe (g : List Bool) : (unreadPair g).Unmistaken :=
  ⟨fun _ => (CancelSafe.disjoint fun _ _ _ _ => rfl).nearSafe _, fun h => absurd trivial h⟩

theorem unreadPair_idle (g : List Bool) : (unreadPair g).OneIdle := Or.inl fun q hq => by
  have : ([] : List Bool).getD q.val false = true := hq
  simp at this

theorem unreadPair_budget (g : List Bool) : (unreadPair g).ReducedBudget ∧ (unreadPair g).drift ≤ 1 / 100 := by
  refine ⟨⟨?_, ?_⟩, ?_⟩
  · show accumulated (1 / 10 ^ 6) 0 (cost (flipped g) + cost (blank g) + 1) ≤ 1 / 1000
    rw [cost_flipped, cost_blank]; unfold accumulated; norm_num
  · show 2 * reducedOverlapError (1 / 10 ^ 6) 0 0 (flipped g) (blank g) + reducedOverlapError (1 / 10 ^ 6) 0 0 (flipped g) (blank g) ^ 2 < 1 / 1000
    unfold reducedOverlapError accumulated; rw [cost_flipped, cost_blank]; norm_num
  · show 1 / 1000 + ((1 + 0) * (1 + 1 / 10 ^ 6) ^ (cost (flipped g) + cost (blank g) + 4) - 1) ≤ 1 / 100
    rw [cost_flipped, cost_blank]; norm_num

theorem unread_alternating (g : List Bool) : ∃ c, PRAnswer (unreadPair g) true .alternating c := by
  obtain ⟨v, s, hr, _⟩ := alternating_rounded_outcome (b := scaledMatrix 2 (1 / 10 ^ 6)) (δ := 1) zero_le_one
    (scaledMatrix_rounded 2 (by norm_num)) (flipped g) (blank g) 1 1 (flipped_wf g) (blank_wf g)
    (tests 2 (1 / 1000)).isId (tests 2 (1 / 1000)).isId_sound (fun _ _ => false) (.counts oneToOneScheme)
    (.counts _ ⟨oneToOneConfigured _ _⟩) (altCheck true (sharpGarbage 2 (1 / 1000)).closeG (tests 2 (1 / 1000)).close (tests 2 (1 / 1000)).wOne 2
      (flipped g) (blank g)) (fun _ => false) (fun _ _ _ h => h)
    .noInformation (altInit (scaledMatrix 2 (1 / 10 ^ 6)) 1 2 (flipped g) (blank g)) (altInit (scaledMatrix 2 (1 / 10 ^ 6)) 1 2 (flipped g) (blank g))
    (fun _ => (CancelSafe.disjoint fun _ _ _ _ => rfl).nearFrom _ _) (by
      have e : altInit (scaledMatrix 2 (1 / 10 ^ 6)) 1 2 (flipped g) (blank g) = ancProj (altAncillary 2 (flipped g).ancillary (blank g).ancillary) := by
        simp [altInit, scaledMatrix, exactMatrix, reduceAncillae]
      rw [e]; exact stretch_ancProj _)
    (by rw [sub_self]; intro v; simpa [nrm_zero] using nrm_nonneg v) _ (Nat.le_refl _)
  exact ⟨v, .alternating (S := unreadPair g) (fun _ => false) (fun _ _ _ h => h) (fun _ _ => rfl) _ (Nat.le_refl _) v s hr⟩

theorem unread_simulation (g : List Bool) : ∃ c, PRAnswer (unreadPair g) true .simulation c := by
  let S := unreadPair g
  let x : Basis 2 → ℂ := fun z => ∏ q : Fin 2, amp (((drawBases zeros (checkerReq 2 2 .random1QBasis).random (Generator.new zeros 1 []).mt).1 ++
    List.replicate ((checkerReq 2 2 .random1QBasis).total - (checkerReq 2 2 .random1QBasis).random) Basis1.zero).getD q.val .zero) (z q)
  obtain ⟨s, h | h⟩ := runTwo_spec S.bV oneToOneScheme true
    (equalsVector S.V.ptrEq S.V.wEq S.V.realClose S.V.fidClose) (fun _ => false) (fun _ _ _ h => h) .noInformation (flipped g) (blank g)
    (oneToOneConfigured (flipped g) (blank g)).good x x _ (Nat.le_refl _)
  · exact absurd h.1 (by simp)
  · exact ⟨_, .simulation (S := S) _ ⟨zeros, Generator.new zeros 1 [], _, _, x, x, fun _ => false, _, s, .product _ _ rfl, .product _,
      by show nrm (x - x) ≤ 0; rw [sub_self, nrm_zero], fun _ _ _ h => h, fun _ _ => rfl, Nat.le_refl _, h.2.1⟩⟩

/-- There is an uninterrupted run with simulations and the alternating checker, and what is known about its verdict. -/
theorem unread_run (g : List Bool) : ∃ (env : Env) (s' : State),
    run env 20 (State.fresh (testCfg true true false false 16 0)) = some (.returned s') ∧
    (s'.results.equivalence = .equivalent ∨ s'.results.equivalence = .equivalentUpToGlobalPhase ∨ s'.results.equivalence = .notEquivalent) ∧
    (PartiallyEquivalent (unreadPair g).unread ((unreadPair g).bothAnc true) (flipped g) 1 (blank g) 1 → s'.results.equivalence ≠ .notEquivalent) ∧
    (¬ PartiallyWithin (4 * (unreadPair g).drift) (unreadPair g).unread ((unreadPair g).someAnc false) (flipped g) 1 (blank g) 1 →
      s'.results.equivalence = .notEquivalent) := by
  obtain ⟨ca, hca⟩ := unread_alternating g
  obtain ⟨cs, hcs⟩ := unread_simulation g
  let env := testEnv (fun _ => some cs) (.returns ca) (.returns .noInformation) (.returns .noInformation)
  obtain ⟨s', hr, h3, h4, h5⟩ := rounded_partial_sequential_decides (unreadPair g) (env := env) (fuel := 20)
    (s := State.fresh (testCfg true true false false 16 0)) (unreadPair_safe g)
    (by simp [env, mode, testEnv, testCfg, State.fresh, Configuration.anythingToExecute])
    (by simp [CountersOk, State.fresh]) (by simp [State.fresh, testCfg]) (by simp [State.fresh, testCfg]) rfl
    (by simp [State.fresh, testCfg, Enabled])
    (by rintro (⟨_, h | ⟨k, h⟩⟩ | ⟨_, h | h⟩ | ⟨h, _⟩ | ⟨h, _⟩) <;> cases h)
    (by
      rintro ⟨k, v⟩ he hen
      cases k
      · obtain ⟨_, h⟩ := he
        cases h; exact hcs
      · cases he; exact hca
      · cases hen
      · cases hen)
  exact ⟨env, s', hr, h3, fun hp => h4 (unreadPair_budget g).1 (unreadPair_idle g) hp, h5⟩

theorem unread_flag (g : List Bool) (q : Fin 2) : (unreadPair g).unread.getD q.val false = g.getD q.val false := by
  rw [prUnread_get]
  show (g.getD q.val false && g.getD q.val false) = _
  rw [Bool.and_self]

/-- **C93**: with qubit 1 not measured there is a run that reports the circuits equivalent – although they are not equivalent. -/
theorem run_accepts : ∃ (env : Env) (s' : State),
    run env 20 (State.fresh (testCfg true true false false 16 0)) = some (.returned s') ∧
    (s'.results.equivalence = .equivalent ∨ s'.results.equivalence = .equivalentUpToGlobalPhase) ∧
    ¬ SameUpToPhase [] (flipped [false, true]) 1 (blank [false, true]) 1 := by
  obtain ⟨env, s', hr, h3, h4, _⟩ := unread_run [false, true]
  have := h4 ((partially_congr (fun q => (unread_flag _ q).symm) (fun _ => rfl) _ _ _ _).1
    (partiallyEquivalent_covers (g := []) (fun q hq => by simp at hq) partially))
  refine ⟨env, s', hr, ?_, not_same _⟩
  rcases h3 with h | h | h
  · exact Or.inl h
  · exact Or.inr h
  · exact absurd h this

/-- **C93**: with qubit 0 not measured instead there is a run that refutes them. -/
theorem run_refutes : ∃ (env : Env) (s' : State),
    run env 20 (State.fresh (testCfg true true false false 16 0)) = some (.returned s') ∧ s'.results.equivalence = .notEquivalent := by
  obtain ⟨env, s', hr, _, _, h5⟩ := unread_run [true, false]
  refine ⟨env, s', hr, h5 fun hp => told_apart ?_⟩
  refine partiallyWithin_covers (g := (unreadPair [true, false]).someAnc false) ?_ ?_ (partiallyWithin_congr (unread_flag _) hp)
  · intro q hq
    rw [Inexact.someAnc, marks_get] at hq
    simp [unreadPair, pair, flipped, justX1, blank, nothing2] at hq
  · have := (unreadPair_budget [true, false]).2
    linarith

end RoundingPartialCases
end QCEC.Props
