import Verif.Lemmas.Verdict
import Verif.Props.DDFlow
/-!
# Helper lemmas for the semantic theorems about the DD checkers
-/
namespace QCEC.Sem
open QCEC QCEC.DD QCEC.Spec QCEC.Props Matrix

variable {n : Nat}
/-- A counting scheme configured by the user (everything but lookahead). -/
structure Configured (qc1 qc2 : QC n) (sch : Scheme (Op n) (Equiv.Perm (Fin n))) where
  info : Op n → OpInfo
  opOf : String → Option OpType
  file : Option (List Char)
  cfg : Configuration
  matrix : Bool
  type : SchemeType
  ok : initScheme info opOf file cfg matrix qc1 qc2 type = .counts sch

theorem Configured.good {qc1 qc2 : QC n} {sch} (h : Configured qc1 qc2 sch) :
    sch.Good qc1.ops.length qc2.ops.length :=
  initScheme_good h.info h.opOf h.file h.cfg h.matrix qc1 qc2 h.type sch h.ok

theorem getDDList_moved (l : List (SOp n)) (A : Mat n) (σ : Equiv.Perm (Fin n)) : (getDDList l A σ).2 = l.foldl SMoved σ := by
  induction l generalizing A σ with
  | nil => rfl
  | cons s r ih =>
    unfold getDDList
    rw [ih, List.foldl_cons]
    cases s <;> rfl

theorem getDD_moved (o : Op n) (σ : Equiv.Perm (Fin n)) : (o.getDD σ).2 = Moved σ o := by
  cases o with
  | simple s => cases s <;> rfl
  | compound l => exact getDDList_moved l 1 σ

theorem trackAll_moved (l : List (Op n)) (σ : Equiv.Perm (Fin n)) : trackAll l σ = l.foldl Moved σ := by
  induction l generalizing σ with
  | nil => rfl
  | cons o r ih => rw [trackAll, ih, getDD_moved, List.foldl_cons]

theorem perm_final {qc : QC n} {ω : Equiv.Perm (Fin n)} (h : WellFormed qc ω) :
    permAfter (trackAll qc.ops qc.initialLayout) qc.outputPermutation = ω := by
  rw [h.labels, trackAll_moved]
  rfl

theorem construction_object (garb) {qc : QC n} {ω : Equiv.Perm (Fin n)} (h : WellFormed qc ω) :
    finalObject (exactMatrix n garb) false qc (constructionInit (exactMatrix n garb) 1 qc) =
      funcOf qc ω * ancProj qc.ancillary := by
  rw [finalObject_exact, perm_final h]
  have : constructionInit (exactMatrix n garb) 1 qc = ancProj qc.ancillary := by
    unfold constructionInit
    simp [exactMatrix, reduceAncillae, Dir.regular]
  rw [this, Matrix.mul_assoc, ancProj_sq]
  rfl

theorem simulation_object (garb) {qc : QC n} {ω : Equiv.Perm (Fin n)} (h : WellFormed qc ω) (x : Basis n → ℂ) :
    finalObject (exactVector n garb) false qc x = output qc ω x := by
  rw [finalObject_vec, perm_final h, output_eq]
  rfl

theorem _root_.QCEC.Spec.NoSwap.stable {o : Op n} (h : NoSwap o) (σ : Equiv.Perm (Fin n)) : (o.getDD σ).2 = σ := by
  cases o with
  | simple s => cases s with
    | gate g => rfl
    | swap a b => exact absurd h (by simp [NoSwap])
    | barrier => rfl
  | compound l =>
    have : ∀ (l : List (SOp n)) (A : Mat n), (∀ s ∈ l, ∀ a b, s ≠ .swap a b) → (getDDList l A σ).2 = σ := by
      intro l
      induction l with
      | nil => intro A _; rfl
      | cons s r ih =>
        intro A h
        unfold getDDList
        have hs : (s.getDD σ).2 = σ := by
          cases s with
          | gate g => rfl
          | swap a b => exact absurd rfl (h _ List.mem_cons_self a b)
          | barrier => rfl
        rw [hs]
        exact ih _ fun t ht => h t (List.mem_cons_of_mem _ ht)
    exact this l 1 h

/-- A configured strategy of the alternating checker: a counting scheme, or lookahead if all SWAPs are top-level operations. -/
inductive AltConfigured {D : Type} (qc1 qc2 : QC n) : AltScheme (Op n) (Equiv.Perm (Fin n)) D → Prop
  | counts (sch) (h : Nonempty (Configured qc1 qc2 sch)) : AltConfigured qc1 qc2 (.counts sch)
  | lookahead (size) (h1 : ∀ o ∈ qc1.ops, o.isSwap = false → NoSwap o)
      (h2 : ∀ o ∈ qc2.ops, o.isSwap = false → NoSwap o) : AltConfigured qc1 qc2 (.lookahead size)

/-- A strategy of the alternating checker the user can choose: a configured counting scheme or lookahead. -/
inductive AltChosen {D : Type} (qc1 qc2 : QC n) : AltScheme (Op n) (Equiv.Perm (Fin n)) D → Prop
  | counts (sch) (h : Nonempty (Configured qc1 qc2 sch)) : AltChosen qc1 qc2 (.counts sch)
  | lookahead (size) : AltChosen qc1 qc2 (.lookahead size)

/-- The strategy computes the product of the circuits: it cancels operations only where that is harmless, and lookahead meets no compound operation that
contains a SWAP. -/
def AltSafe {D : Type} (opEq : Op n → Op n → Bool) (qc1 qc2 : QC n) (sch : AltScheme (Op n) (Equiv.Perm (Fin n)) D) : Prop :=
  (sch.Cancels → SkipSafe opEq qc1 qc2) ∧
  (¬ sch.Cancels → (∀ o ∈ qc1.ops, o.isSwap = false → NoSwap o) ∧ ∀ o ∈ qc2.ops, o.isSwap = false → NoSwap o)

theorem AltChosen.configured {D : Type} {qc1 qc2 : QC n} {opEq : Op n → Op n → Bool} {sch : AltScheme (Op n) (Equiv.Perm (Fin n)) D}
    (h : AltChosen qc1 qc2 sch) (hs : AltSafe opEq qc1 qc2 sch) : AltConfigured qc1 qc2 sch := by
  cases h with
  | counts sch h => exact .counts sch h
  | lookahead size => exact .lookahead size (hs.2 (fun h => h)).1 (hs.2 (fun h => h)).2

theorem AltConfigured.chosen {D : Type} {qc1 qc2 : QC n} {sch : AltScheme (Op n) (Equiv.Perm (Fin n)) D} (h : AltConfigured qc1 qc2 sch) :
    AltChosen qc1 qc2 sch := by
  cases h with
  | counts sch h => exact .counts sch h
  | lookahead size => exact .lookahead size

theorem AltConfigured.safe {D : Type} {qc1 qc2 : QC n} {opEq : Op n → Op n → Bool} {sch : AltScheme (Op n) (Equiv.Perm (Fin n)) D}
    (h : AltConfigured qc1 qc2 sch) (hc : sch.Cancels → SkipSafe opEq qc1 qc2) : AltSafe opEq qc1 qc2 sch := by
  cases h with
  | counts sch h => exact ⟨hc, fun h => absurd trivial h⟩
  | lookahead size h1 h2 => exact ⟨hc, fun _ => ⟨h1, h2⟩⟩

/-- A position of the alternating check: the remaining operations are suffixes of the circuits and the tracked permutations are the labels
after the operations before. -/
def AltPos (qc1 qc2 : QC n) (r1 : List (Op n)) (σ1 : Equiv.Perm (Fin n)) (r2 : List (Op n)) (σ2 : Equiv.Perm (Fin n)) : Prop :=
  (∃ p1, qc1.ops = p1 ++ r1 ∧ σ1 = p1.foldl Moved qc1.initialLayout) ∧ (∃ p2, qc2.ops = p2 ++ r2 ∧ σ2 = p2.foldl Moved qc2.initialLayout)

theorem AltPos.start (qc1 qc2 : QC n) : AltPos qc1 qc2 qc1.ops qc1.initialLayout qc2.ops qc2.initialLayout :=
  ⟨⟨[], rfl, rfl⟩, ⟨[], rfl, rfl⟩⟩

theorem AltPos.left {qc1 qc2 : QC n} {o : Op n} {r1 σ1 r2 σ2} (h : AltPos qc1 qc2 (o :: r1) σ1 r2 σ2) :
    AltPos qc1 qc2 r1 (o.getDD σ1).2 r2 σ2 := by
  obtain ⟨⟨p1, e1, e2⟩, h2⟩ := h
  exact ⟨⟨p1 ++ [o], by simp [e1], by rw [getDD_moved, List.foldl_append, ← e2]; rfl⟩, h2⟩

theorem AltPos.right {qc1 qc2 : QC n} {o : Op n} {r1 σ1 r2 σ2} (h : AltPos qc1 qc2 r1 σ1 (o :: r2) σ2) :
    AltPos qc1 qc2 r1 σ1 r2 (o.getDD σ2).2 := by
  obtain ⟨h1, p2, e1, e2⟩ := h
  exact ⟨h1, p2 ++ [o], by simp [e1], by rw [getDD_moved, List.foldl_append, ← e2]; rfl⟩

theorem altAncillary_flag (a1 a2 : List Bool) (q : Fin n) :
    (altAncillary n a1 a2).getD q.val false = (a1.getD q.val false && a2.getD q.val false) := by
  unfold altAncillary
  simp [List.getD]

/-- Operations are cancelled safely in a check that starts with the operator `init`: behind beginnings of the circuits that undo each other. -/
def SkipSafeFrom (init : Mat n) (opEq : Op n → Op n → Bool) (qc1 qc2 : QC n) : Prop :=
  ∀ p1 a r1 p2 b r2, qc1.ops = p1 ++ a :: r1 → qc2.ops = p2 ++ b :: r2 →
    (∃ c : ℂ, funcOf { qc1 with ops := p1 } (p1.foldl Moved qc1.initialLayout) * init *
      (funcOf { qc2 with ops := p2 } (p2.foldl Moved qc2.initialLayout))ᴴ = c • 1) → opEq a b = true → a.isSwap = false → b.isSwap = false →
    Moved (p1.foldl Moved qc1.initialLayout) a = p1.foldl Moved qc1.initialLayout ∧
    Moved (p2.foldl Moved qc2.initialLayout) b = p2.foldl Moved qc2.initialLayout ∧
    logicalOp (p1.foldl Moved qc1.initialLayout) a = logicalOp (p2.foldl Moved qc2.initialLayout) b

theorem _root_.QCEC.Spec.CancelSafe.from {opEq : Op n → Op n → Bool} {qc1 qc2 : QC n} (h : CancelSafe opEq qc1 qc2) (init : Mat n) :
    SkipSafeFrom init opEq qc1 qc2 := fun p1 a r1 p2 b r2 e1 e2 _ => h p1 a r1 p2 b r2 e1 e2

theorem _root_.QCEC.Spec.SkipSafe.from {opEq : Op n → Op n → Bool} {qc1 qc2 : QC n} (h : SkipSafe opEq qc1 qc2) (hv1 : ∀ o ∈ qc1.ops, o.Valid)
    (hv2 : ∀ o ∈ qc2.ops, o.Valid) : SkipSafeFrom (ancProj (altAncillary n qc1.ancillary qc2.ancillary)) opEq qc1 qc2 := by
  rintro p1 a r1 p2 b r2 e1 e2 ⟨c, hc⟩
  have hfl := altAncillary_flag (n := n) qc1.ancillary qc2.ancillary
  generalize altAncillary n qc1.ancillary qc2.ancillary = anc at *
  suffices hh : (ancProj anc : Mat n) = 1 ∧ AgreeUpTo qc1 qc2 p1 p2 by
    refine h (fun q hq => ?_) p1 a r1 p2 b r2 e1 e2 hh.2
    have hq' : anc.getD q.val false = true := by rw [hfl, hq.1, hq.2]; rfl
    have := congrFun (congrFun hh.1 (fun _ => true)) (fun _ => true)
    rw [Matrix.one_apply_eq] at this
    unfold ancProj at this
    rw [Matrix.diagonal_apply_eq, if_neg (fun hx => absurd (hx q hq') (by simp))] at this
    exact zero_ne_one this
  have u1 := funcOf_unitary { qc1 with ops := p1 } (p1.foldl Moved qc1.initialLayout) fun o ho => hv1 o (by rw [e1]; exact List.mem_append_left _ ho)
  have u2 := funcOf_unitary { qc2 with ops := p2 } (p2.foldl Moved qc2.initialLayout) fun o ho => hv2 o (by rw [e2]; exact List.mem_append_left _ ho)
  unfold AgreeUpTo SameUpToPhase
  simp only [sameUpTo_iff]
  generalize funcOf { qc1 with ops := p1 } (p1.foldl Moved qc1.initialLayout) = F1 at *
  generalize funcOf { qc2 with ops := p2 } (p2.foldl Moved qc2.initialLayout) = F2 at *
  have e : F1 * ancProj anc = c • F2 := by
    have := congrArg (· * F2) hc
    simp only [Matrix.mul_assoc, unitary_comm F2 u2, Matrix.mul_one, Matrix.smul_mul, Matrix.one_mul] at this
    exact this
  have c0 : c ≠ 0 := by
    rintro rfl
    rw [zero_smul] at e
    exact func_ancProj_ne_zero F1 u1 anc e
  have hP : (ancProj anc : Mat n) = 1 := by
    have h2 : c • (F2 * ancProj anc) = c • F2 := by
      rw [← e, ← Matrix.smul_mul, ← e, Matrix.mul_assoc, ancProj_sq]
    have h3 : F2 * ancProj anc = F2 := by
      have := congrArg (c⁻¹ • ·) h2
      simpa [smul_smul, inv_mul_cancel₀ c0] using this
    have := congrArg (F2ᴴ * ·) h3
    simpa [← Matrix.mul_assoc, unitary_comm F2 u2] using this
  have eF : F1 = c • F2 := by rwa [hP, Matrix.mul_one] at e
  refine ⟨hP, c, ?_, by rw [eF, Matrix.smul_mul]⟩
  have h4 : (c * star c) • (1 : Mat n) = 1 := by
    have := u1
    rw [eF, Matrix.conjTranspose_smul, Matrix.smul_mul, Matrix.mul_smul, u2, smul_smul] at this
    exact this
  have h5 := congrFun (congrFun h4 (fun _ => false)) (fun _ => false)
  simp only [Matrix.smul_apply, Matrix.one_apply_eq, smul_eq_mul, mul_one] at h5
  have h6 : ‖c‖ * ‖c‖ = 1 := by
    have := congrArg norm h5
    simpa using this
  nlinarith [norm_nonneg c]

theorem physOps_append (l r : List (Op n)) : physOps (l ++ r) = physOps r * physOps l := by
  induction l with
  | nil => simp [physOps]
  | cons o t ih => rw [List.cons_append, physOps, physOps, ih, Matrix.mul_assoc]

theorem AltPos.skip {qc1 qc2 : QC n} {a b : Op n} {r1 σ1 r2 σ2} (h : AltPos qc1 qc2 (a :: r1) σ1 (b :: r2) σ2)
    (hv1 : ∀ o ∈ qc1.ops, o.Valid) (hv2 : ∀ o ∈ qc2.ops, o.Valid) {init : Mat n} {opEq : Op n → Op n → Bool} (hc : SkipSafeFrom init opEq qc1 qc2)
    (he : opEq a b = true) (sa : a.isSwap = false) (sb : b.isSwap = false)
    (hW : ∃ (W : Mat n) (c : ℂ), view σ1 σ2 W = c • (1 : Mat n) ∧ physOps (a :: r1) * W * (physOps (b :: r2))ᴴ =
      physOps qc1.ops * view qc1.initialLayout.symm qc2.initialLayout.symm init * (physOps qc2.ops)ᴴ) :
    a.Valid ∧ view σ1 σ1 a.phys = view σ2 σ2 b.phys ∧ AltPos qc1 qc2 r1 σ1 r2 σ2 := by
  obtain ⟨⟨p1, e1, rfl⟩, p2, e2, rfl⟩ := h
  obtain ⟨W, c, hW1, hW2⟩ := hW
  have hW0 : init = view qc1.initialLayout qc2.initialLayout (view qc1.initialLayout.symm qc2.initialLayout.symm init) := by
    funext x y
    simp only [view]
    congr 1 <;> (funext q; simp)
  have u1 := physOps_unitary (a :: r1) fun o ho => hv1 o (by rw [e1]; exact List.mem_append_right _ ho)
  have u2 := physOps_unitary (b :: r2) fun o ho => hv2 o (by rw [e2]; exact List.mem_append_right _ ho)
  have hW3 : W = physOps p1 * view qc1.initialLayout.symm qc2.initialLayout.symm init * (physOps p2)ᴴ := by
    rw [e1, e2, physOps_append, physOps_append, Matrix.conjTranspose_mul] at hW2
    have := congrArg (fun X => (physOps (a :: r1))ᴴ * X * physOps (b :: r2)) hW2
    have k1 := unitary_comm _ u1
    have k2 := unitary_comm _ u2
    generalize physOps (a :: r1) = A at *
    generalize physOps (b :: r2) = B at *
    simp only [Matrix.mul_assoc, k2, Matrix.mul_one] at this
    simp only [← Matrix.mul_assoc, k1, Matrix.one_mul] at this
    simpa [Matrix.mul_assoc] using this
  obtain ⟨c1, c2, c3⟩ := hc _ _ _ _ _ _ e1 e2 ⟨c, by
    rw [← hW1, hW3]
    unfold funcOf
    conv_lhs => rw [hW0]
    rw [view_ct, view_mul, view_mul]⟩ he sa sb
  refine ⟨hv1 a (by simp [e1]), c3, ⟨p1 ++ [a], by simp [e1], ?_⟩, p2 ++ [b], by simp [e2], ?_⟩
  · rw [List.foldl_append]; exact c1.symm
  · rw [List.foldl_append]; exact c2.symm

theorem AltPos.skip_cancel {qc1 qc2 : QC n} {a b : Op n} {r1 σ1 r2 σ2} (h : AltPos qc1 qc2 (a :: r1) σ1 (b :: r2) σ2)
    (hv : ∀ o ∈ qc1.ops, o.Valid) {opEq : Op n → Op n → Bool} (hc : CancelSafe opEq qc1 qc2) (he : opEq a b = true) (sa : a.isSwap = false)
    (sb : b.isSwap = false) : a.Valid ∧ view σ1 σ1 a.phys = view σ2 σ2 b.phys ∧ AltPos qc1 qc2 r1 σ1 r2 σ2 := by
  obtain ⟨⟨p1, e1, rfl⟩, p2, e2, rfl⟩ := h
  obtain ⟨c1, c2, c3⟩ := hc _ _ _ _ _ _ e1 e2 he sa sb
  refine ⟨hv a (by simp [e1]), c3, ⟨p1 ++ [a], by simp [e1], ?_⟩, p2 ++ [b], by simp [e2], ?_⟩
  · rw [List.foldl_append]; exact c1.symm
  · rw [List.foldl_append]; exact c2.symm

theorem AltPos.mem1 {qc1 qc2 : QC n} {r1 σ1 r2 σ2} (h : AltPos qc1 qc2 r1 σ1 r2 σ2) : ∀ o ∈ r1, o ∈ qc1.ops := by
  obtain ⟨⟨p1, e1, _⟩, _⟩ := h
  intro o ho; rw [e1]; exact List.mem_append_right _ ho

theorem AltPos.mem2 {qc1 qc2 : QC n} {r1 σ1 r2 σ2} (h : AltPos qc1 qc2 r1 σ1 r2 σ2) : ∀ o ∈ r2, o ∈ qc2.ops := by
  obtain ⟨_, p2, e2, _⟩ := h
  intro o ho; rw [e2]; exact List.mem_append_right _ ho

theorem AltPos.track {qc1 qc2 : QC n} {r1 σ1 r2 σ2} (h : AltPos qc1 qc2 r1 σ1 r2 σ2) :
    trackAll r1 σ1 = trackAll qc1.ops qc1.initialLayout ∧ trackAll r2 σ2 = trackAll qc2.ops qc2.initialLayout := by
  obtain ⟨⟨p1, e1, rfl⟩, p2, e2, rfl⟩ := h
  simp only [trackAll_moved, e1, e2, List.foldl_append, and_self]

theorem altLoop_lookahead_opEq {α π ρ M D : Type} (b : Backend α π ρ M D) (isId : D → Bool) (opEq opEq' : α → α → Bool) (size : D → Nat)
    (stop : Nat → Bool) (fuel : Nat) (s : Alt α π M D) :
    altLoop b isId opEq (.lookahead size) stop fuel s = altLoop b isId opEq' (.lookahead size) stop fuel s := by
  induction fuel generalizing s with
  | zero => rfl
  | succ fuel ih =>
    unfold altLoop
    simp only [ih]

/-- Lookahead never compares operations, so their comparison can be replaced by one that is safe to use. -/
theorem safe_comparison {ρ' M D : Type} (b : Backend (Op n) (Equiv.Perm (Fin n)) ρ' M D) (isId : D → Bool) (opEq : Op n → Op n → Bool)
    (sch : AltScheme (Op n) (Equiv.Perm (Fin n)) D) (verdict : D → Criterion) (stop : Nat → Bool) (prev : Criterion) (qc1 qc2 : QC n)
    (q1 q2 : Circuit (Op n) (Equiv.Perm (Fin n)) ρ') (init : D) (fuel : Nat) (A : Mat n) (hc : sch.Cancels → SkipSafeFrom A opEq qc1 qc2) :
    ∃ opEq', SkipSafeFrom A opEq' qc1 qc2 ∧
      runAlt b isId opEq sch verdict stop prev q1 q2 init fuel = runAlt b isId opEq' sch verdict stop prev q1 q2 init fuel := by
  cases sch with
  | counts f => exact ⟨opEq, hc trivial, rfl⟩
  | lookahead size =>
    refine ⟨fun _ _ => false, ?_, ?_⟩
    · intro p1 a r1 p2 b r2 _ _ _ he; cases he
    · unfold runAlt
      rw [altLoop_lookahead_opEq b isId opEq (fun _ _ => false)]

/-- The same for the stronger condition. -/
theorem cancel_comparison {ρ' M D : Type} (b : Backend (Op n) (Equiv.Perm (Fin n)) ρ' M D) (isId : D → Bool) (opEq : Op n → Op n → Bool)
    (sch : AltScheme (Op n) (Equiv.Perm (Fin n)) D) (verdict : D → Criterion) (stop : Nat → Bool) (prev : Criterion) (qc1 qc2 : QC n)
    (q1 q2 : Circuit (Op n) (Equiv.Perm (Fin n)) ρ') (init : D) (fuel : Nat) (hc : sch.Cancels → CancelSafe opEq qc1 qc2) :
    ∃ opEq', CancelSafe opEq' qc1 qc2 ∧
      runAlt b isId opEq sch verdict stop prev q1 q2 init fuel = runAlt b isId opEq' sch verdict stop prev q1 q2 init fuel := by
  cases sch with
  | counts f => exact ⟨opEq, hc trivial, rfl⟩
  | lookahead size =>
    refine ⟨fun _ _ => false, ?_, ?_⟩
    · intro p1 a r1 p2 b r2 _ _ he; cases he
    · unfold runAlt
      rw [altLoop_lookahead_opEq b isId opEq (fun _ _ => false)]

/-- Common part of the alternating theorems. -/
theorem alternating_outcome_from (garb) (qc1 qc2 : QC n) (ω1 ω2 : Equiv.Perm (Fin n)) (h1 : WellFormed qc1 ω1)
    (h2 : WellFormed qc2 ω2) (T : ExactTests n) (opEq : Op n → Op n → Bool)
    (sch : AltScheme (Op n) (Equiv.Perm (Fin n)) (Mat n))
    (init : Mat n) (hc : sch.Cancels → SkipSafeFrom init opEq qc1 qc2) (hs : AltConfigured qc1 qc2 sch) (verdict : Mat n → Criterion)
    (stop : Nat → Bool) (hm : Mono stop) (prev : Criterion) (fuel : Nat)
    (hf : qc1.ops.length + qc2.ops.length + 2 ≤ fuel) :
    ∃ v s, runAlt (exactMatrix n garb) T.isId opEq sch verdict stop prev qc1 qc2 init fuel = .ok (v, s) ∧
      (stop s.polls = true ∧ v = prev ∨
       stop s.polls = false ∧ s.d = funcOf qc1 ω1 * init * (funcOf qc2 ω2)ᴴ ∧ v = verdict s.d) := by
  obtain ⟨opEq, hc, he⟩ := safe_comparison (exactMatrix n garb) T.isId opEq sch verdict stop prev qc1 qc2 qc1 qc2 init fuel init hc
  rw [he]
  let P := AltPos qc1 qc2
  let W0 := view qc1.initialLayout.symm qc2.initialLayout.symm init
  have hW0 : init = view qc1.initialLayout qc2.initialLayout W0 := by
    funext x y
    simp only [view, W0]
    congr 1 <;> (funext q; simp)
  let TT := physOps qc1.ops * W0 * (physOps qc2.ops)ᴴ
  have hinv : AltInv (exactMatrix n garb) T.isId opEq (AltSem TT P) := by
    apply altSem_inv garb TT P T.isId opEq
    · intro o r1 σ1 r2 σ2 h; exact h.left
    · intro o r1 σ1 r2 σ2 h; exact h.right
    · intro a b r1 σ1 r2 σ2 he sa sb h hW; exact h.skip h1.ops h2.ops hc he sa sb hW
    · exact T.isId_sound
  have hok : sch.Ok (exactMatrix n garb) (AltSem TT P) qc1.ops.length qc2.ops.length := by
    cases hs with
    | counts sch h => obtain ⟨h⟩ := h; exact h.good
    | lookahead size l1 l2 =>
      refine ⟨?_, ?_⟩
      · rintro o r1 σ1 r2 σ2 d ⟨_, hP⟩ hsw
        exact (l1 o (hP.mem1 o List.mem_cons_self) hsw).stable σ1
      · rintro o r1 σ1 r2 σ2 d ⟨_, hP⟩ hsw
        show (o.getInv σ2).2 = σ2
        rw [(o.getInv_eq σ2).2]
        exact (l2 o (hP.mem2 o List.mem_cons_self) hsw).stable σ2
  have hstart : AltSem TT P qc1.ops qc1.initialLayout qc2.ops qc2.initialLayout init := by
    exact ⟨⟨W0, hW0, rfl⟩, AltPos.start qc1 qc2⟩
  obtain ⟨s, h | h⟩ := runAlt_spec hinv sch verdict stop hm prev qc1 qc2 hok init fuel hf hstart
  · exact ⟨prev, s, h.2, Or.inl ⟨h.1, rfl⟩⟩
  · obtain ⟨h0, hr, p1, p2, d, ⟨⟨W, rfl, hW⟩, hP⟩, hd⟩ := h
    obtain ⟨ht1, ht2⟩ := hP.track
    simp only [trackAll] at ht1 ht2
    refine ⟨verdict s.d, s, hr, Or.inr ⟨h0, ?_, rfl⟩⟩
    have hWT : W = TT := by rw [← hW]; simp [physOps]
    have e1 : ∀ d σ tgt, (exactMatrix n garb).changePerm true d σ tgt =
      changePerm (fun a b d => swapMat a b * d) d σ tgt := fun _ _ _ => rfl
    have e2 : ∀ d σ tgt, (exactMatrix n garb).changePerm false d σ tgt =
      changePerm (fun a b d => d * swapMat a b) d σ tgt := fun _ _ _ => rfl
    rw [hd, e1, e2, changePerm_left, changePerm_right, ht1, ht2, perm_final h1, perm_final h2, view_mul, view_mul, Matrix.one_mul,
      Matrix.mul_one, hWT]
    unfold funcOf
    rw [hW0, view_ct, view_mul, view_mul]

/-- The same for the operator the checker starts with. -/
theorem alternating_outcome (garb) (qc1 qc2 : QC n) (ω1 ω2 : Equiv.Perm (Fin n)) (h1 : WellFormed qc1 ω1)
    (h2 : WellFormed qc2 ω2) (T : ExactTests n) (opEq : Op n → Op n → Bool)
    (sch : AltScheme (Op n) (Equiv.Perm (Fin n)) (Mat n))
    (hc : sch.Cancels → SkipSafe opEq qc1 qc2) (hs : AltConfigured qc1 qc2 sch) (verdict : Mat n → Criterion)
    (stop : Nat → Bool) (hm : Mono stop) (prev : Criterion) (fuel : Nat)
    (hf : qc1.ops.length + qc2.ops.length + 2 ≤ fuel) :
    ∃ v s, runAlt (exactMatrix n garb) T.isId opEq sch verdict stop prev qc1 qc2 (altInit (exactMatrix n garb) 1 n qc1 qc2) fuel = .ok (v, s) ∧
      (stop s.polls = true ∧ v = prev ∨
       stop s.polls = false ∧ s.d = funcOf qc1 ω1 * altInit (exactMatrix n garb) 1 n qc1 qc2 * (funcOf qc2 ω2)ᴴ ∧ v = verdict s.d) := by
  have hi : altInit (exactMatrix n garb) 1 n qc1 qc2 = ancProj (altAncillary n qc1.ancillary qc2.ancillary) := by
    simp [altInit, exactMatrix, reduceAncillae]
  rw [hi]
  exact alternating_outcome_from garb qc1 qc2 ω1 ω2 h1 h2 T opEq sch _ (fun h => (hc h).from h1.ops h2.ops) hs verdict stop hm prev fuel hf

theorem mul_preserves {p : Fin n} {A B : Mat n} (hA : ∀ x y, A x y ≠ 0 → x p = y p) (hB : ∀ x y, B x y ≠ 0 → x p = y p)
    (x y : Basis n) (h : (A * B) x y ≠ 0) : x p = y p := by
  rw [Matrix.mul_apply] at h
  obtain ⟨z, _, hz⟩ := Finset.exists_ne_zero_of_sum_ne_zero h
  rw [hA x z (left_ne_zero_of_mul hz), hB z y (right_ne_zero_of_mul hz)]

theorem one_preserves (p : Fin n) (x y : Basis n) (h : (1 : Mat n) x y ≠ 0) : x p = y p := by
  rw [Matrix.one_apply] at h
  by_cases e : x = y
  · rw [e]
  · rw [if_neg e] at h; exact absurd rfl h

theorem _root_.QCEC.Spec.SAvoids.preserves {p : Fin n} {s : SOp n} (hs : SAvoids p s) (x y : Basis n) (h : s.phys x y ≠ 0) : x p = y p := by
  cases s with
  | gate g =>
    simp only [SOp.phys, Gate.mat] at h
    by_cases hc : ∀ c ∈ g.controls, y c.1 = c.2
    · rw [if_pos hc] at h
      by_cases ht : ∀ q, (∀ i, g.targets i ≠ q) → x q = y q
      · exact ht p hs
      · rw [if_neg ht] at h; exact absurd rfl h
    · rw [if_neg hc] at h
      by_cases e : x = y
      · rw [e]
      · rw [if_neg e] at h; exact absurd rfl h
  | swap a b =>
    simp only [SOp.phys, swapMat] at h
    by_cases e : x = y ∘ Equiv.swap a b
    · rw [e, Function.comp_apply, Equiv.swap_apply_of_ne_of_ne (Ne.symm hs.1) (Ne.symm hs.2)]
    · rw [if_neg e] at h; exact absurd rfl h
  | barrier => exact one_preserves p x y h

theorem _root_.QCEC.Spec.Avoids.preserves {p : Fin n} {o : Op n} (ho : Avoids p o) (x y : Basis n) (h : o.phys x y ≠ 0) : x p = y p := by
  cases o with
  | simple s => exact SAvoids.preserves ho x y h
  | compound l =>
    have : ∀ l : List (SOp n), (∀ s ∈ l, SAvoids p s) → ∀ x y, physList l x y ≠ 0 → x p = y p := by
      intro l
      induction l with
      | nil => intro _ x y h; exact one_preserves p x y h
      | cons s r ih =>
        intro hl
        exact mul_preserves (ih fun t ht => hl t (List.mem_cons_of_mem _ ht)) (SAvoids.preserves (hl s List.mem_cons_self))
    exact this l ho x y h

/-- What a circuit does with a qubit it leaves alone. -/
theorem _root_.QCEC.Spec.LeftAlone.preserves {qc : QC n} {ω : Equiv.Perm (Fin n)} {p : Fin n} (hp : ∀ o ∈ qc.ops, Avoids p o) (x y : Basis n)
    (h : funcOf qc ω x y ≠ 0) : x (ω p) = y (qc.initialLayout p) := by
  have : ∀ l : List (Op n), (∀ o ∈ l, Avoids p o) → ∀ x y, physOps l x y ≠ 0 → x p = y p := by
    intro l
    induction l with
    | nil => intro _ x y h; exact one_preserves p x y h
    | cons s r ih =>
      intro hl
      exact mul_preserves (ih fun t ht => hl t (List.mem_cons_of_mem _ ht)) (Avoids.preserves (hl s List.mem_cons_self))
  exact this qc.ops hp _ _ h

theorem _root_.QCEC.Spec.Idle.preserves {qc : QC n} {ω : Equiv.Perm (Fin n)} {q : Fin n} (hq : Idle qc ω q) (x y : Basis n)
    (h : funcOf qc ω x y ≠ 0) : x q = y q := by
  obtain ⟨p, hp1, hp2, hops⟩ := hq
  have h' := LeftAlone.preserves hops x y h
  rwa [hp1, hp2] at h'

theorem idle_commutes {qc : QC n} {ω : Equiv.Perm (Fin n)} (anc : List Bool)
    (h : ∀ q : Fin n, anc.getD q.val false = true → Idle qc ω q) :
    funcOf qc ω * ancProj anc = ancProj anc * funcOf qc ω := by
  funext x y
  unfold ancProj
  rw [Matrix.mul_diagonal, Matrix.diagonal_mul]
  by_cases h0 : funcOf qc ω x y = 0
  · rw [h0]; simp
  · have : (∀ q : Fin n, anc.getD q.val false = true → x q = false) ↔
        (∀ q : Fin n, anc.getD q.val false = true → y q = false) := by
      constructor
      · intro hx q hq; rw [← (h q hq).preserves x y h0]; exact hx q hq
      · intro hx q hq; rw [(h q hq).preserves x y h0]; exact hx q hq
    simp only [this]
    split <;> simp

theorem ancProj_split (anc anc1 anc2 : List Bool)
    (h : ∀ q : Fin n, anc.getD q.val false = true ↔ (anc1.getD q.val false = true ∨ anc2.getD q.val false = true)) :
    (ancProj anc : Mat n) = ancProj anc1 * ancProj anc2 := by
  unfold ancProj
  rw [Matrix.diagonal_mul_diagonal]
  congr 1
  funext x
  by_cases h1 : ∀ q : Fin n, anc1.getD q.val false = true → x q = false
  · by_cases h2 : ∀ q : Fin n, anc2.getD q.val false = true → x q = false
    · rw [if_pos h1, if_pos h2, if_pos]
      · simp
      · intro q hq; rcases (h q).mp hq with h | h
        · exact h1 q h
        · exact h2 q h
    · rw [if_neg h2, if_neg]
      · simp
      · intro hx; exact h2 fun q hq => hx q ((h q).mpr (Or.inr hq))
  · rw [if_neg h1, if_neg]
    · simp
    · intro hx; exact h1 fun q hq => hx q ((h q).mpr (Or.inl hq))

theorem same_iff (anc : List Bool) (qc1 qc2 : QC n) (ω1 ω2 : Equiv.Perm (Fin n)) :
    Same anc qc1 ω1 qc2 ω2 ↔ funcOf qc1 ω1 * ancProj anc = funcOf qc2 ω2 * ancProj anc := by
  unfold Same
  rw [sameUpTo_iff, one_smul]

theorem same_imp_phase {anc : List Bool} {qc1 qc2 : QC n} {ω1 ω2 : Equiv.Perm (Fin n)} (h : Same anc qc1 ω1 qc2 ω2) :
    SameUpToPhase anc qc1 ω1 qc2 ω2 := ⟨1, by simp, h⟩


theorem _root_.QCEC.Spec.Correct.of {v : Criterion} {anc : List Bool} {qc1 qc2 : QC n} {ω1 ω2 : Equiv.Perm (Fin n)}
    (snd : Sound v anc qc1 ω1 qc2 ω2)
    (three : v = .equivalent ∨ v = .equivalentUpToGlobalPhase ∨ v = .notEquivalent)
    (complete : SameUpToPhase anc qc1 ω1 qc2 ω2 → v ≠ .notEquivalent) : Correct v anc qc1 ω1 qc2 ω2 := by
  refine ⟨⟨snd.equivalent, ?_⟩, ⟨snd.phase, ?_⟩, ⟨?_, ?_⟩⟩
  · intro h
    rcases three with e | e | e
    · exact e
    · exact absurd h (snd.phase e).2
    · exact absurd e (complete (same_imp_phase h))
  · rintro ⟨h, hn⟩
    rcases three with e | e | e
    · exact absurd (snd.equivalent e) hn
    · exact e
    · exact absurd e (complete h)
  · intro e h
    exact complete h e
  · intro h
    rcases three with e | e | e
    · exact absurd (same_imp_phase (snd.equivalent e)) h
    · exact absurd (snd.phase e).1 h
    · exact e

theorem altVerdict_sound (T : ExactTests n) (anc : List Bool) (qc1 qc2 : QC n) (ω1 ω2 : Equiv.Perm (Fin n))
    (h1 : ∀ o ∈ qc1.ops, o.Valid) (h2 : ∀ o ∈ qc2.ops, o.Valid) :
    Sound (altVerdict T.close T.wOne (funcOf qc1 ω1 * ancProj anc * (funcOf qc2 ω2)ᴴ)) anc qc1 ω1 qc2 ω2 := by
  have u1 := funcOf_unitary qc1 ω1 h1
  have u2 := funcOf_unitary qc2 ω2 h2
  generalize hD : funcOf qc1 ω1 * ancProj anc * (funcOf qc2 ω2)ᴴ = D
  have core : T.close D = true → ∃ c : ℂ, ‖c‖ = 1 ∧
      funcOf qc1 ω1 * ancProj anc = c • (funcOf qc2 ω2 * ancProj anc) ∧ (T.wOne D = true ↔ c = 1) := by
    intro hcl
    obtain ⟨c, S, hc, hS, hE⟩ := T.close_sound D hcl
    obtain ⟨hn, he, _⟩ := alternating_core _ _ _ u1 u2 (ancProj_sq anc) (ancProj_ct anc) c S hc hS (hD.trans hE)
    refine ⟨c, hn, he, ?_⟩
    rw [hE] at hcl ⊢
    exact T.wOne_iff c S hc hS hcl
  unfold altVerdict
  constructor
  · intro hv
    split at hv
    · rename_i hcl
      obtain ⟨c, hn, he, hw⟩ := core hcl
      split at hv
      · rename_i hw1
        rw [hw.mp hw1, one_smul] at he
        exact (same_iff ..).mpr he
      · exact absurd hv (by simp)
    · exact absurd hv (by simp)
  · intro hv
    split at hv
    · rename_i hcl
      obtain ⟨c, hn, he, hw⟩ := core hcl
      split at hv
      · exact absurd hv (by simp)
      · rename_i hw1
        refine ⟨⟨c, hn, (sameUpTo_iff ..).mpr he⟩, ?_⟩
        intro hsame
        have hs := (same_iff ..).mp hsame
        rw [hs] at he
        have h0 : (1 - c) • (funcOf qc2 ω2 * ancProj anc) = 0 := by rw [sub_smul, one_smul, ← he, sub_self]
        rcases smul_eq_zero.mp h0 with h | h
        · exact hw1 (hw.mpr (sub_eq_zero.mp h).symm)
        · exact func_ancProj_ne_zero _ u2 anc h
    · exact absurd hv (by simp)

/-- The product if the second circuit leaves the flagged qubits alone: a projection, onto the qubits as which they are read out. -/
theorem leftAlone_product {qc : QC n} {ω : Equiv.Perm (Fin n)} (hv : ∀ o ∈ qc.ops, o.Valid) (anc : List Bool)
    (h : ∀ q : Fin n, anc.getD q.val false = true → LeftAlone qc q) :
    ∃ anc' : List Bool, funcOf qc ω * ancProj anc * (funcOf qc ω)ᴴ = ancProj anc' := by
  classical
  let anc' : List Bool := List.ofFn fun r : Fin n => decide (anc.getD (qc.initialLayout (ω.symm r)).val false = true)
  have f : ∀ r : Fin n, anc'.getD r.val false = true ↔ anc.getD (qc.initialLayout (ω.symm r)).val false = true := by
    intro q; simp only [anc', List.getD, List.getElem?_ofFn, q.isLt, dif_pos, Option.getD_some]; exact decide_eq_true_iff
  have hp : ∀ p : Fin n, anc.getD (qc.initialLayout p).val false = true → ∀ o ∈ qc.ops, Avoids p o := by
    intro p ha
    obtain ⟨p', e, ho⟩ := h _ ha
    rw [qc.initialLayout.injective e] at ho
    exact ho
  have comm : funcOf qc ω * ancProj anc = ancProj anc' * funcOf qc ω := by
    funext x y
    unfold ancProj
    rw [Matrix.mul_diagonal, Matrix.diagonal_mul]
    by_cases h0 : funcOf qc ω x y = 0
    · rw [h0]; simp
    · have : (∀ q : Fin n, anc'.getD q.val false = true → x q = false) ↔ (∀ q : Fin n, anc.getD q.val false = true → y q = false) := by
        constructor
        · intro hx q hq
          have hq' : anc.getD (qc.initialLayout (qc.initialLayout.symm q)).val false = true := by rwa [Equiv.apply_symm_apply]
          have := LeftAlone.preserves (hp _ hq') x y h0
          rw [Equiv.apply_symm_apply] at this
          rw [← this]
          exact hx _ ((f _).2 (by rw [Equiv.symm_apply_apply]; exact hq'))
        · intro hy r hr
          have hr' := (f r).1 hr
          have := LeftAlone.preserves (hp _ hr') x y h0
          rw [Equiv.apply_symm_apply] at this
          rw [this]
          exact hy _ hr'
      simp only [this]
      split <;> simp
  refine ⟨anc', ?_⟩
  rw [comm, Matrix.mul_assoc, funcOf_unitary qc ω hv, Matrix.mul_one]

theorem phase_of_multiple (F1 F2 P : Mat n) (h1 : F1 * F1ᴴ = 1) (h2 : F2 * F2ᴴ = 1) (hP : P * P = P) (hPc : Pᴴ = P)
    (hPne : P ≠ 0) (c : ℂ) (h : F1 * P = c • (F2 * P)) : ‖c‖ = 1 := by
  have g1 := unitary_comm F1 h1
  have g2 := unitary_comm F2 h2
  apply norm_one_of
  have e1 : (F1 * P)ᴴ * (F1 * P) = P := by
    rw [Matrix.conjTranspose_mul, hPc, Matrix.mul_assoc, ← Matrix.mul_assoc F1ᴴ, g1, Matrix.one_mul, hP]
  have e2 : (F2 * P)ᴴ * (F2 * P) = P := by
    rw [Matrix.conjTranspose_mul, hPc, Matrix.mul_assoc, ← Matrix.mul_assoc F2ᴴ, g2, Matrix.one_mul, hP]
  rw [h, Matrix.conjTranspose_smul, Matrix.smul_mul, Matrix.mul_smul, e2, smul_smul] at e1
  have : (star c * c - 1) • P = 0 := by rw [sub_smul, e1, one_smul, sub_self]
  rcases smul_eq_zero.mp this with h | h
  · rw [mul_comm]; exact sub_eq_zero.mp h
  · exact absurd h hPne

/-- If the circuits agree up to a factor where the flagged qubits are zero and one of them leaves each of these qubits alone and in place, the product
with the projection in between is that factor. -/
theorem product_of_idle {qc1 qc2 : QC n} {ω1 ω2 : Equiv.Perm (Fin n)} (h1 : ∀ o ∈ qc1.ops, o.Valid) (h2 : ∀ o ∈ qc2.ops, o.Valid)
    (anc : List Bool) (hidle : ∀ q : Fin n, anc.getD q.val false = true → Idle qc1 ω1 q ∨ Idle qc2 ω2 q) (c : ℂ)
    (hc : SameUpTo c anc qc1 ω1 qc2 ω2) : funcOf qc1 ω1 * ancProj anc * (funcOf qc2 ω2)ᴴ = c • ancProj anc := by
  classical
  -- flags of the ancillas idle in circuit 1, and of the others
  let anc1 : List Bool := List.ofFn fun q : Fin n => decide (anc.getD q.val false = true ∧ Idle qc1 ω1 q)
  let anc2 : List Bool := List.ofFn fun q : Fin n => decide (anc.getD q.val false = true ∧ ¬ Idle qc1 ω1 q)
  have f1 : ∀ q : Fin n, anc1.getD q.val false = true ↔ (anc.getD q.val false = true ∧ Idle qc1 ω1 q) := by
    intro q; simp only [anc1, List.getD, List.getElem?_ofFn, q.isLt, dif_pos, Option.getD_some]; exact decide_eq_true_iff
  have f2 : ∀ q : Fin n, anc2.getD q.val false = true ↔ (anc.getD q.val false = true ∧ ¬ Idle qc1 ω1 q) := by
    intro q; simp only [anc2, List.getD, List.getElem?_ofFn, q.isLt, dif_pos, Option.getD_some]; exact decide_eq_true_iff
  have hsplit : ∀ q : Fin n, anc.getD q.val false = true ↔ (anc2.getD q.val false = true ∨ anc1.getD q.val false = true) := by
    intro q; rw [f1, f2]; by_cases h : Idle qc1 ω1 q <;> simp [h]
  have hsplit' : ∀ q : Fin n, anc.getD q.val false = true ↔ (anc1.getD q.val false = true ∨ anc2.getD q.val false = true) := by
    intro q; rw [hsplit q]; exact Or.comm
  have hP := ancProj_split (n := n) anc anc2 anc1 hsplit
  have hP' := ancProj_split (n := n) anc anc1 anc2 hsplit'
  exact alternating_complete (funcOf qc1 ω1) (funcOf qc2 ω2) (ancProj anc) (ancProj anc2) (ancProj anc1) (funcOf_unitary qc1 ω1 h1)
    (funcOf_unitary qc2 ω2 h2) (ancProj_sq anc) (ancProj_ct anc) (ancProj_ne_zero anc) hP (hP.symm.trans hP') (ancProj_sq _) (ancProj_sq _)
    (idle_commutes anc2 fun q hq => (hidle q ((f2 q).mp hq).1).resolve_left ((f2 q).mp hq).2)
    (idle_commutes anc1 fun q hq => ((f1 q).mp hq).2) c ((sameUpTo_iff ..).mp hc)

/-- What the flags tell about how the circuits treat the qubits (see `Settled`). -/
def Known (anc : List Bool) (qc1 : QC n) (ω1 : Equiv.Perm (Fin n)) (qc2 : QC n) (ω2 : Equiv.Perm (Fin n)) : Prop :=
  (∀ q : Fin n, anc.getD q.val false = true → Idle qc1 ω1 q ∨ Idle qc2 ω2 q) ∨ (∀ q : Fin n, anc.getD q.val false = true → LeftAlone qc1 q) ∨
    ∀ q : Fin n, anc.getD q.val false = true → LeftAlone qc2 q

/-- If the circuits agree up to a factor where the flagged qubits are zero, the product with the projection in between is that factor times a projection
onto qubits being zero. -/
theorem product_of_known {qc1 qc2 : QC n} {ω1 ω2 : Equiv.Perm (Fin n)} (h1 : ∀ o ∈ qc1.ops, o.Valid) (h2 : ∀ o ∈ qc2.ops, o.Valid)
    (anc : List Bool) (hk : Known anc qc1 ω1 qc2 ω2) (c : ℂ) (hc : SameUpTo c anc qc1 ω1 qc2 ω2) :
    ∃ anc' : List Bool, funcOf qc1 ω1 * ancProj anc * (funcOf qc2 ω2)ᴴ = c • ancProj anc' := by
  have hc' := (sameUpTo_iff ..).mp hc
  rcases hk with hk | hk | hk
  · exact ⟨anc, product_of_idle h1 h2 anc hk c hc⟩
  · obtain ⟨anc', e⟩ := leftAlone_product (ω := ω1) h1 anc hk
    have hn := phase_of_multiple _ _ _ (funcOf_unitary qc1 ω1 h1) (funcOf_unitary qc2 ω2 h2) (ancProj_sq anc) (ancProj_ct anc) (ancProj_ne_zero anc) c hc'
    have hcc : c * star c = 1 := by
      rw [Complex.star_def, Complex.mul_conj, Complex.normSq_eq_norm_sq, hn]; simp
    refine ⟨anc', ?_⟩
    have e2 : ancProj anc * (funcOf qc2 ω2)ᴴ = c • (ancProj anc * (funcOf qc1 ω1)ᴴ) := by
      have := congrArg Matrix.conjTranspose hc'
      rw [Matrix.conjTranspose_smul, Matrix.conjTranspose_mul, Matrix.conjTranspose_mul, ancProj_ct] at this
      rw [this, smul_smul, hcc, one_smul]
    rw [Matrix.mul_assoc, e2, Matrix.mul_smul, ← Matrix.mul_assoc, e]
  · obtain ⟨anc', e⟩ := leftAlone_product (ω := ω2) h2 anc hk
    exact ⟨anc', by rw [hc', Matrix.smul_mul, e]⟩

theorem altVerdict_known (T : ExactTests n) (anc : List Bool) (qc1 qc2 : QC n) (ω1 ω2 : Equiv.Perm (Fin n))
    (h1 : ∀ o ∈ qc1.ops, o.Valid) (h2 : ∀ o ∈ qc2.ops, o.Valid) (hk : Known anc qc1 ω1 qc2 ω2) :
    Correct (altVerdict T.close T.wOne (funcOf qc1 ω1 * ancProj anc * (funcOf qc2 ω2)ᴴ)) anc qc1 ω1 qc2 ω2 := by
  have snd := altVerdict_sound T anc qc1 qc2 ω1 ω2 h1 h2
  have complete : SameUpToPhase anc qc1 ω1 qc2 ω2 →
      altVerdict T.close T.wOne (funcOf qc1 ω1 * ancProj anc * (funcOf qc2 ω2)ᴴ) ≠ .notEquivalent := by
    rintro ⟨c, hn, hc⟩
    have hcne : c ≠ 0 := by intro h; rw [h] at hn; simp at hn
    obtain ⟨anc', e⟩ := product_of_known h1 h2 anc hk c hc
    rw [e]
    unfold altVerdict
    rw [T.close_complete c anc' hcne, if_pos rfl]
    split <;> simp
  have three : ∀ D, altVerdict T.close T.wOne D = .equivalent ∨
      altVerdict T.close T.wOne D = .equivalentUpToGlobalPhase ∨ altVerdict T.close T.wOne D = .notEquivalent := by
    intro D; unfold altVerdict; split
    · split <;> simp
    · simp
  exact Correct.of snd (three _) complete

theorem altVerdict_correct (T : ExactTests n) (anc : List Bool) (qc1 qc2 : QC n) (ω1 ω2 : Equiv.Perm (Fin n))
    (h1 : ∀ o ∈ qc1.ops, o.Valid) (h2 : ∀ o ∈ qc2.ops, o.Valid)
    (hidle : ∀ q : Fin n, anc.getD q.val false = true → Idle qc1 ω1 q ∨ Idle qc2 ω2 q) :
    Correct (altVerdict T.close T.wOne (funcOf qc1 ω1 * ancProj anc * (funcOf qc2 ω2)ᴴ)) anc qc1 ω1 qc2 ω2 :=
  altVerdict_known T anc qc1 qc2 ω1 ω2 h1 h2 (Or.inl hidle)


theorem ancProj_congr (a1 a2 : List Bool) (h : ∀ q : Fin n, a1.getD q.val false = a2.getD q.val false) :
    (ancProj a1 : Mat n) = ancProj a2 := by
  unfold ancProj
  simp only [h]

theorem close_multiple_of_proj (F P : Mat n) (h1 : F * Fᴴ = 1) (hP : P * P = P) (hPc : Pᴴ = P) (a : ℂ)
    (S : Finset (Basis n)) (ha : a ≠ 0) (h : F * P = a • indic S) : ∃ b : ℂ, b ≠ 0 ∧ F * P = b • P := by
  have g1 := unitary_comm F h1
  have e1 : (F * P)ᴴ * (F * P) = P := by
    rw [Matrix.conjTranspose_mul, hPc, Matrix.mul_assoc, ← Matrix.mul_assoc Fᴴ, g1, Matrix.one_mul, hP]
  rw [h, Matrix.conjTranspose_smul, Matrix.smul_mul, Matrix.mul_smul, indic_ct, indic_sq, smul_smul] at e1
  have hne : star a * a ≠ 0 := mul_ne_zero (star_ne_zero.mpr ha) ha
  refine ⟨a * (star a * a)⁻¹, mul_ne_zero ha (inv_ne_zero hne), ?_⟩
  rw [h, ← e1, smul_smul, mul_assoc, inv_mul_cancel₀ hne, mul_one]

theorem equalsMatrix_correct (T : ExactTests n) (anc : List Bool) (qc1 qc2 : QC n) (ω1 ω2 : Equiv.Perm (Fin n))
    (h1 : ∀ o ∈ qc1.ops, o.Valid) (h2 : ∀ o ∈ qc2.ops, o.Valid) :
    Correct (equalsMatrix T.ptrEq T.wEq T.close (fun e f => e * fᴴ) (funcOf qc1 ω1 * ancProj anc)
      (funcOf qc2 ω2 * ancProj anc)) anc qc1 ω1 qc2 ω2 := by
  have u1 := funcOf_unitary qc1 ω1 h1
  have u2 := funcOf_unitary qc2 ω2 h2
  have n1 := func_ancProj_ne_zero _ u1 anc
  have n2 := func_ancProj_ne_zero _ u2 anc
  have hP := ancProj_sq (n := n) anc
  have hPc := ancProj_ct (n := n) anc
  have hph : ∀ c : ℂ, funcOf qc1 ω1 * ancProj anc = c • (funcOf qc2 ω2 * ancProj anc) → ‖c‖ = 1 := fun c h =>
    phase_of_multiple _ _ _ u1 u2 hP hPc (ancProj_ne_zero anc) c h
  by_cases hptr : T.ptrEq (funcOf qc1 ω1 * ancProj anc) (funcOf qc2 ω2 * ancProj anc) = true
  · obtain ⟨c, hc, he⟩ := (T.ptrEq_iff _ _ n1 n2).mp hptr
    have hw := T.wEq_iff _ _ n1 n2 hptr
    have hsp : SameUpToPhase anc qc1 ω1 qc2 ω2 := ⟨c, hph c he, (sameUpTo_iff ..).mpr he⟩
    unfold equalsMatrix
    rw [if_pos hptr]
    apply Correct.of
    · constructor
      · intro h
        split at h
        · rename_i hw1; exact (same_iff ..).mpr (hw.mp hw1)
        · exact absurd h (by simp)
      · intro h
        split at h
        · exact absurd h (by simp)
        · rename_i hw1; exact ⟨hsp, fun hs => hw1 (hw.mpr ((same_iff ..).mp hs))⟩
    · split <;> simp
    · intro _; split <;> simp
  · have hno : ∀ c : ℂ, c ≠ 0 → funcOf qc1 ω1 * ancProj anc ≠ c • (funcOf qc2 ω2 * ancProj anc) :=
      fun c hc h => hptr ((T.ptrEq_iff _ _ n1 n2).mpr ⟨c, hc, h⟩)
    have hcl : (if (T.close (funcOf qc1 ω1 * ancProj anc) || T.close (funcOf qc2 ω2 * ancProj anc)) = true
        then (T.close (funcOf qc1 ω1 * ancProj anc) && T.close (funcOf qc2 ω2 * ancProj anc))
        else T.close ((funcOf qc1 ω1 * ancProj anc) * (funcOf qc2 ω2 * ancProj anc)ᴴ)) = false := by
      split
      · by_contra hcon
        simp only [Bool.not_eq_false, Bool.and_eq_true] at hcon
        obtain ⟨a, S, ha, _, hS⟩ := T.close_sound _ hcon.1
        obtain ⟨b, R, hb, _, hR⟩ := T.close_sound _ hcon.2
        obtain ⟨a', ha', hS'⟩ := close_multiple_of_proj _ _ u1 hP hPc a S ha hS
        obtain ⟨b', hb', hR'⟩ := close_multiple_of_proj _ _ u2 hP hPc b R hb hR
        refine hno (a' * b'⁻¹) (mul_ne_zero ha' (inv_ne_zero hb')) ?_
        rw [hS', hR', smul_smul, mul_assoc, inv_mul_cancel₀ hb', mul_one]
      · by_contra hcon
        simp only [Bool.not_eq_false] at hcon
        obtain ⟨a, S, ha, hne, hS⟩ := T.close_sound _ hcon
        have hPP : funcOf qc1 ω1 * ancProj anc * (funcOf qc2 ω2 * ancProj anc)ᴴ =
            funcOf qc1 ω1 * ancProj anc * (funcOf qc2 ω2)ᴴ := by
          rw [Matrix.conjTranspose_mul, hPc, ← Matrix.mul_assoc (funcOf qc1 ω1 * ancProj anc),
            Matrix.mul_assoc (funcOf qc1 ω1) (ancProj anc) (ancProj anc), hP]
        rw [hPP] at hS
        exact hno a ha (alternating_core _ _ _ u1 u2 hP hPc a S ha hne hS).2.1
    unfold equalsMatrix
    rw [if_neg hptr]
    simp only
    rw [hcl]
    simp only [Bool.false_eq_true, if_false]
    apply Correct.of
    · exact ⟨fun h => absurd h (by simp), fun h => absurd h (by simp)⟩
    · simp
    · rintro ⟨c, hn, hc⟩
      have hcne : c ≠ 0 := by intro h; rw [h] at hn; simp at hn
      exact absurd ((sameUpTo_iff ..).mp hc) (hno c hcne)

theorem equalsMatrix_union (T : ExactTests n) (a1 a2 anc : List Bool)
    (hanc : ∀ q : Fin n, anc.getD q.val false = true ↔ (a1.getD q.val false = true ∨ a2.getD q.val false = true))
    (qc1 qc2 : QC n) (ω1 ω2 : Equiv.Perm (Fin n)) (h1 : ∀ o ∈ qc1.ops, o.Valid) (h2 : ∀ o ∈ qc2.ops, o.Valid) :
    equalsMatrix T.ptrEq T.wEq T.close (fun e f => e * fᴴ) (funcOf qc1 ω1 * ancProj a1) (funcOf qc2 ω2 * ancProj a2) ≠
      .notEquivalent → SameUpToPhase anc qc1 ω1 qc2 ω2 := by
  intro hv
  have u1 := funcOf_unitary qc1 ω1 h1
  have u2 := funcOf_unitary qc2 ω2 h2
  have hP : (ancProj anc : Mat n) = ancProj a1 * ancProj a2 := ancProj_split anc a1 a2 hanc
  have hP' : (ancProj anc : Mat n) = ancProj a2 * ancProj a1 := ancProj_split anc a2 a1 fun q => (hanc q).trans Or.comm
  have e1 : (ancProj a1 : Mat n) * ancProj anc = ancProj anc := by rw [hP, ← Matrix.mul_assoc, ancProj_sq]
  have e2 : (ancProj a2 : Mat n) * ancProj anc = ancProj anc := by rw [hP', ← Matrix.mul_assoc, ancProj_sq]
  have fin : ∀ c : ℂ, funcOf qc1 ω1 * ancProj anc = c • (funcOf qc2 ω2 * ancProj anc) → SameUpToPhase anc qc1 ω1 qc2 ω2 :=
    fun c h => ⟨c, phase_of_multiple _ _ _ u1 u2 (ancProj_sq anc) (ancProj_ct anc) (ancProj_ne_zero anc) c h,
      (sameUpTo_iff ..).mpr h⟩
  unfold equalsMatrix at hv
  split at hv
  · rename_i hptr
    obtain ⟨c, _, he⟩ := (T.ptrEq_iff _ _ (func_ancProj_ne_zero _ u1 a1) (func_ancProj_ne_zero _ u2 a2)).mp hptr
    apply fin c
    have := congrArg (· * ancProj anc) he
    simp only [Matrix.smul_mul] at this
    rwa [Matrix.mul_assoc, e1, Matrix.mul_assoc, e2] at this
  · simp only at hv
    split at hv
    · split at hv
      · rename_i hcl
        rw [Bool.and_eq_true] at hcl
        obtain ⟨a, S, ha, _, hS⟩ := T.close_sound _ hcl.1
        obtain ⟨b, R, hb, _, hR⟩ := T.close_sound _ hcl.2
        obtain ⟨a', ha', hS'⟩ := close_multiple_of_proj _ _ u1 (ancProj_sq a1) (ancProj_ct a1) a S ha hS
        obtain ⟨b', hb', hR'⟩ := close_multiple_of_proj _ _ u2 (ancProj_sq a2) (ancProj_ct a2) b R hb hR
        apply fin (a' * b'⁻¹)
        have g1 := congrArg (· * ancProj anc) hS'
        have g2 := congrArg (· * ancProj anc) hR'
        simp only [Matrix.smul_mul] at g1 g2
        rw [Matrix.mul_assoc, e1] at g1
        rw [Matrix.mul_assoc, e2] at g2
        rw [g1, g2, smul_smul, mul_assoc, inv_mul_cancel₀ hb', mul_one]
      · exact absurd rfl hv
    · split at hv
      · rename_i hcl
        obtain ⟨a, S, ha, hne, hS⟩ := T.close_sound _ hcl
        have hPP : funcOf qc1 ω1 * ancProj a1 * (funcOf qc2 ω2 * ancProj a2)ᴴ =
            funcOf qc1 ω1 * ancProj anc * (funcOf qc2 ω2)ᴴ := by
          rw [Matrix.conjTranspose_mul, ancProj_ct, ← Matrix.mul_assoc (funcOf qc1 ω1 * ancProj a1),
            Matrix.mul_assoc (funcOf qc1 ω1) (ancProj a1) (ancProj a2), ← hP]
        rw [hPP] at hS
        exact fin a (alternating_core _ _ _ u1 u2 (ancProj_sq anc) (ancProj_ct anc) a S ha hne hS).2.1
      · exact absurd rfl hv

theorem equalsMatrix_three {D : Type} (ptrEq wEq : D → D → Bool) (close : D → Bool) (mulDagger : D → D → D) (e f : D) :
    equalsMatrix ptrEq wEq close mulDagger e f = .equivalent ∨
    equalsMatrix ptrEq wEq close mulDagger e f = .equivalentUpToGlobalPhase ∨
    equalsMatrix ptrEq wEq close mulDagger e f = .notEquivalent := by
  unfold equalsMatrix
  simp only
  cases ptrEq e f <;> cases wEq e f <;> cases (if (close e || close f) = true then close e && close f else close (mulDagger e f)) <;> simp

/-! ## Vectors -/

theorem dist_eq (e f : Basis n → ℂ) (he : Normalised e) (hf : Normalised f) :
    ∑ y, Complex.normSq (e y - f y) = 2 - 2 * (inner e f).re := by
  have key : ∀ y, Complex.normSq (e y - f y) = (star (e y) * e y).re + (star (f y) * f y).re - 2 * (star (e y) * f y).re := by
    intro y
    simp only [Complex.normSq_apply, Complex.mul_re, Complex.star_def, Complex.conj_re, Complex.conj_im, Complex.sub_re,
      Complex.sub_im]
    ring
  simp only [key]
  rw [Finset.sum_sub_distrib, Finset.sum_add_distrib, ← Finset.mul_sum]
  have r : ∀ a b : Basis n → ℂ, ∑ y, (star (a y) * b y).re = (inner a b).re := by
    intro a b; unfold inner; rw [Complex.re_sum]
  rw [r, r, r, he, hf]
  norm_num

theorem inner_eq (e f : Basis n → ℂ) : inner e f = star e ⬝ᵥ f := rfl

theorem inner_unitary (F : Mat n) (h : F * Fᴴ = 1) (v w : Basis n → ℂ) :
    inner (F.mulVec v) (F.mulVec w) = inner v w := by
  rw [inner_eq, inner_eq, Matrix.star_mulVec, ← Matrix.dotProduct_mulVec, Matrix.mulVec_mulVec, unitary_comm F h,
    Matrix.one_mulVec]

theorem inner_smul_left (c : ℂ) (e f : Basis n → ℂ) : inner (c • e) f = star c * inner e f := by
  unfold inner
  rw [Finset.mul_sum]
  apply Finset.sum_congr rfl
  intro x _
  simp only [Pi.smul_apply, smul_eq_mul, star_mul']
  ring

theorem output_normalised (qc : QC n) (ω : Equiv.Perm (Fin n)) (h : ∀ o ∈ qc.ops, o.Valid) (v : Basis n → ℂ)
    (hv : Normalised v) : Normalised (output qc ω v) := by
  unfold Normalised
  rw [output_eq, inner_unitary _ (funcOf_unitary qc ω h)]
  exact hv

/-! ## The assumed tests exist -/

theorem ancProj_indic (anc : List Bool) :
    ∃ S : Finset (Basis n), S.Nonempty ∧ (ancProj anc : Mat n) = indic S := by
  classical
  refine ⟨Finset.univ.filter fun x => ∀ q : Fin n, anc.getD q.val false = true → x q = false, ?_, ?_⟩
  · exact ⟨fun _ => false, by simp⟩
  · unfold ancProj indic
    congr 1
    funext x
    simp

end QCEC.Sem
