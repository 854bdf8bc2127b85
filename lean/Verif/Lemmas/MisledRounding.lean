import Verif.Lemmas.Misled
import Verif.Lemmas.WideRounding
import Verif.Spec.VerifyRounding
import Verif.Props.EndToEndRounding
/-!
# With a package that rounds the alternating checker is safe unless the prepared circuits nearly mislead it
-/
namespace QCEC.Props
open QCEC QCEC.Mgr QCEC.Prep QCEC.Spec QCEC.Spec.Wide QCEC.Wide QCEC.Sem QCEC.DD

variable {m n : Nat}

theorem near_of_not_mistakable {e1 e2 : Nat → Fin n} {c1 c2 : Circ WOp} {qc1 qc2 : QC n} (w1 : Wired c1) (w2 : Wired c2) (h1 : Numbered e1 c1 qc1)
    (h2 : Numbered e2 c2 qc2) {opEq : Op n → Op n → Bool}
    (hop : ∀ a ∈ c1.ops, ∀ b ∈ c2.ops, opEq (a.on e1) (b.on e2) = true → a = b) {d : ℝ}
    (h : (d < 1 / 2 → ∀ q < c1.nqubits, ¬ (c1.isAncillary q = true ∧ c2.isAncillary q = true)) → ¬ NearlyMistakable d c1 c2) : NearSafe d opEq qc1 qc2 := by
  intro hanc
  replace h := h fun hd q hqn hq => by
    rw [h1.width] at hqn
    exact hanc hd ⟨q, hqn⟩ ⟨(h1.ancillary q hqn).trans hq.1, (h2.ancillary q hqn).trans hq.2⟩
  intro p1 a r1 p2 b r2 g1 g2 hag he sa sb
  rw [h1.ops] at g1
  rw [h2.ops] at g2
  obtain ⟨P1, R1, k1, rfl, q1⟩ := List.map_eq_append_iff.1 g1
  obtain ⟨P2, R2, k2, rfl, q2⟩ := List.map_eq_append_iff.1 g2
  obtain ⟨o, T1, rfl, rfl, rfl⟩ := List.map_eq_cons_iff.1 q1
  obtain ⟨o', T2, rfl, rfl, rfl⟩ := List.map_eq_cons_iff.1 q2
  have := hop o (by rw [k1]; simp) o' (by rw [k2]; simp) he
  subst this
  rw [isSwap_on] at sa
  have hW : ∃ k : ℂ, Within (fun q => c1.isAncillary q = true ∧ c2.isAncillary q = true) d k (upTo c1 P1) (upTo c2 P2) := by
    obtain ⟨k, hk⟩ := hag
    refine ⟨k, within_numbered (wired_upTo w1 k1) (wired_upTo w2 k2) (numbered_upTo h1 P1) (numbered_upTo h2 P2) _ ?_ hk⟩
    intro q hq
    have := altAncillary_flag (n := n) qc1.ancillary qc2.ancillary ⟨q, hq⟩
    unfold altAncillary at this
    rw [this, h1.ancillary q hq, h2.ancillary q hq, Bool.and_eq_true]
  exact harmless_skip w1 w2 h1 h2 k1 k2 sa fun hx => h ⟨P1, P2, o, T1, T2, k1, k2, sa, hW, hx⟩

/-- The alternating checker is safe unless it is nearly misled. -/
theorem safe_of_not_nearly_misled {c1 c2 : Circ WOp} {cfg : Configuration} {setters : List Param.Setter} {lib : Library}
    (hP : ∀ p ∈ planned cfg.optimizations true, Faithful lib.passes p) {M : Made WOp} (h : Prep.construct lib.acts lib.passes cfg c1 c2 = .made M)
    (S : Inexact m n) {e1 e2 : Nat → Fin n} (w1 : Wired M.qc1) (w2 : Wired M.qc2) (hn1 : Numbered e1 M.qc1 S.qc1) (hn2 : Numbered e2 M.qc2 S.qc2)
    (hsch : S.schA.Cancels ↔ M.cfg.application.alternatingScheme ≠ .lookahead)
    (hop : ∀ a ∈ M.qc1.ops, ∀ b ∈ M.qc2.ops, S.opEq (a.on e1) (b.on e2) = true → a = b) {d : ℝ} (hd : S.drift ≤ d)
    (hno : ¬ NearlyMisled lib c1 c2 cfg setters d) (hen : Enabled (afterSetters M.cfg setters) .alternating) : S.Safe := by
  refine ⟨fun hc => ?_, fun hc => ?_, settled_of_not_misread w1 w2 hn1 hn2 S.wf1 S.wf2 fun hr => hno ⟨M, hP, h, hen, Or.inr (Or.inr hr)⟩⟩
  · exact (near_of_not_mistakable w1 w2 hn1 hn2 hop fun ha hm => hno ⟨M, hP, h, hen, Or.inl ⟨hsch.1 hc, ha, hm⟩⟩).mono hd
  · have hl : M.cfg.application.alternatingScheme = .lookahead := by
      by_contra hl
      exact hc (hsch.2 hl)
    have hh : ∀ o, (o ∈ M.qc1.ops ∨ o ∈ M.qc2.ops) → ¬ HidesSwap o := fun o ho hs =>
      hno ⟨M, hP, h, hen, Or.inr (Or.inl ⟨hl, o, ho, hs⟩)⟩
    constructor
    · intro o ho hs
      rw [hn1.ops] at ho
      obtain ⟨o, ho', rfl⟩ := List.mem_map.1 ho
      rw [isSwap_on] at hs
      exact noSwap_on hs (hh o (Or.inl ho'))
    · intro o ho hs
      rw [hn2.ops] at ho
      obtain ⟨o, ho', rfl⟩ := List.mem_map.1 ho
      rw [isSwap_on] at hs
      exact noSwap_on hs (hh o (Or.inr ho'))

end QCEC.Props
