import Verif.Props.VerifyCommon
import Verif.Props.VerifyMixedWitness
import Verif.Props.PythonVerifyWitness
import Verif.Props.ZXWitness
import Verif.Props.PartialRelationWitness
/-!
# C90: calls that meet the hypotheses; where the checkers disagree
-/
namespace QCEC.Props.VerifyCommonWitness
open QCEC QCEC.DD QCEC.Param QCEC.Mgr QCEC.Prep QCEC.Spec QCEC.Spec.Wide QCEC.Spec.ZX QCEC.ZX QCEC.Wide QCEC.Sem QCEC.Spec.Param QCEC.Props
open QCEC.Props.PreparationWitness QCEC.Props.VerifyPartialWitness QCEC.Props.VerifyMixedWitness QCEC.Props.PythonVerifyWitness QCEC.Spec.Py

/-- One-qubit circuits without a SWAP that have the same layout are not mistakable. -/
theorem not_mistakable {x y : Circ WOp} (hx : ∀ o ∈ x.ops, ∃ m, o = wGate m) (hy : ∀ o ∈ y.ops, ∃ m, o = wGate m) (hl : x.initialLayout = y.initialLayout)
    (hw : x.nqubits = y.nqubits) :
    ¬ Mistakable x y := by
  rintro ⟨p1, p2, o, r1, r2, e1, e2, _, _, h⟩
  obtain ⟨m, rfl⟩ := hx o (by rw [e1]; simp)
  have still : ∀ (p : List WOp) (l : Nat → Nat), (∀ o ∈ p, ∃ m, o = wGate m) → (p.flatMap WOp.parts).foldl WSOp.moved l = l := by
    intro p
    induction p with
    | nil => intro l _; rfl
    | cons a t ih =>
      intro l h
      obtain ⟨m, rfl⟩ := h a (by simp)
      exact ih l fun o ho => h o (by simp [ho])
  rcases h with ⟨_, a, b, h⟩ | ⟨p, _, hp⟩
  · simp [wGate, WOp.parts] at h
  · unfold labelAfter at hp
    rw [still p1 _ (fun o ho => hx o (by rw [e1]; simp [ho])), still p2 _ (fun o ho => hy o (by rw [e2]; simp [ho]))] at hp
    apply hp
    unfold startLabel
    rw [hl, hw]

/-- An uninterrupted run with the alternating checker. -/
theorem calm_mixed {m n : Nat} {x y rx ry : Circ WOp} (S : Mixed m n) (hs : S.Safe) {e1 e2 : Nat → Fin n}
    (accepted : Accepted S.qc1 S.qc2) (hd : rx.ndata = m) (nx : Numbered e1 rx S.qc1) (ny : Numbered e2 ry S.qc2)
    (h : Prep.construct named nothingToDo acfg x y = .made { qc1 := rx, qc2 := ry, cfg := acfg })
    (hsch : Follows S acfg := by exact ⟨fun _ => by decide, fun _ => trivial⟩) (hop : ∀ a b, S.opEq a b = false := by exact fun _ _ => rfl) :
    ∃ v, CalmManagerRun VerifyWitness.plain x y acfg [] v := by
  obtain ⟨c, ha⟩ := exists_mixed_alternating S hs accepted
  let env := testEnv (fun _ => some .noInformation) (.returns c) (.returns .noInformation) (.returns .noInformation)
  have hm : mode env acfg = .sequential := rfl
  obtain ⟨s', hr⟩ : ∃ s', Mgr.run env 20 (State.fresh acfg) = some (.returned s') := by
    cases c <;> exact ⟨_, rfl⟩
  refine ⟨s'.results.equivalence, ⟨fun p _ c hc => ⟨hc, rfl, fun _ => rfl, fun _ _ => rfl⟩, _, h, m, n, hd, S, e1, e2, nx, ny, hsch,
    fun a _ b _ h => Bool.noConfusion ((hop _ _).symm.trans h), ?_⟩⟩
  refine .sequential env 20 s' hm (fun h => absurd h (lt_irrefl (0 : ℚ))) hr ?_
  rintro ⟨k, v⟩ h hen
  cases k
  · cases hen
  · cases h; exact ha
  · cases hen
  · cases hen

/-- None of the exceptions applies to such circuits, with the alternating checker only. -/
theorem acfg_not_excused {x y : Circ WOp} (made : Prep.construct named nothingToDo acfg x y = .made { qc1 := x, qc2 := y, cfg := acfg })
    (hx : ∀ o ∈ x.ops, ∃ m, o = wGate m) (hy : ∀ o ∈ y.ops, ∃ m, o = wGate m) (hl : x.initialLayout = y.initialLayout) (hw : x.nqubits = y.nqubits)
    (hne : x.ops ≠ []) (ha : ∀ q, ¬ (x.isAncillary q = true ∧ y.isAncillary q = true)) (v : Criterion) : ¬ ExcusedCommon VerifyWitness.plain x y acfg v := by
  have back : ∀ {M}, Prep.construct VerifyWitness.plain.acts VerifyWitness.plain.passes acfg x y = .made M → M = { qc1 := x, qc2 := y, cfg := acfg } := by
    intro M hm
    have hm : Prep.construct named nothingToDo acfg x y = .made M := hm
    rw [made] at hm
    injection hm with hm
    exact hm.symm
  rintro ((⟨_, M, _, hm, h, _⟩ | ⟨_, h⟩ | ⟨M, _, hm, _, h⟩) | h)
  · rw [back hm] at h
    exact hne h
  · exact absurd h.1 (by decide)
  · rw [back hm] at h
    rcases h with ⟨_, _, h⟩ | ⟨h, _⟩ | ⟨⟨q, _, a, b, _⟩, _⟩
    · exact not_mistakable hx hy hl hw h
    · cases h
    · exact ha q ⟨a, b⟩
  · refine not_otherwise_alternating (lib := VerifyWitness.plain) (cfg := acfg) (by simp [Enabled, acfg, testCfg]) (by simp [Enabled, acfg, testCfg]) ?_ h
    intro M hm
    rw [back hm]
    simp [Enabled, acfg, testCfg]

/-- **C90** is not vacuous: an uninterrupted call for two circuits of which only one declares the qubit as ancillary.  None of the exceptions applies; the
verdict is `NotEquivalent`, although the circuits do the same if that qubit is `|0⟩`. -/
theorem different_ancillas_decided : ∃ v, FullyChecked VerifyWitness.plain conv kz k1 acfg v ∧ Runnable kz ∧ Runnable k1 ∧ ¬ SameAncillas kz k1 ∧
    ¬ ExcusedCommon VerifyWitness.plain kz k1 acfg v ∧ v = .notEquivalent ∧ Equal kz k1 ∧ ¬ EqualCommonUpToPhase kz k1 := by
  have made : Prep.construct named nothingToDo acfg kz k1 = .made { qc1 := kz, qc2 := k1, cfg := acfg } := rfl
  have hp : ∀ p ∈ planned acfg.optimizations true, Faithful nothingToDo p := fun p _ c hc => ⟨hc, rfl, fun _ => rfl, fun _ _ => rfl⟩
  obtain ⟨v, hv⟩ := calm_mixed (x := kz) (y := k1) phased phased_safe (fun q h => by obtain ⟨_, h⟩ := h; exact absurd h (by revert q; decide)) rfl kz_numbered (kNumbered _) made
  have key := mixed_constructed named_reliable kz_runnable k1_runnable hp made phased kz_numbered (kNumbered _)
  have hne : ¬ EqualCommonUpToPhase kz k1 := by
    rintro ⟨k, hk, h⟩
    exact phased_different ⟨k, hk, (key k false (by simp)).2.2 h⟩
  have hexc : ¬ ExcusedCommon VerifyWitness.plain kz k1 acfg v := by
    refine acfg_not_excused made ?_ ?_ rfl rfl (by simp [kz, k2]) (by rintro (_ | q) ⟨a, b⟩ <;> simp [kz, k1, k2, Circ.isAncillary] at a b) v
    · intro o ho
      simp only [kz, k2, List.mem_cons, List.not_mem_nil, or_false] at ho
      rcases ho with rfl | rfl <;> exact ⟨_, rfl⟩
    · intro o ho
      simp only [k1, List.mem_cons, List.not_mem_nil, or_false] at ho
      subst ho
      exact ⟨_, rfl⟩
  have hf : FullyChecked VerifyWitness.plain conv kz k1 acfg v := fully hv rfl (Or.inl rfl)
  refine ⟨v, hf, kz_runnable, k1_runnable, different_ancillas.1, hexc, ?_, (key 1 false (by simp)).1.1 phased_same, hne⟩
  rcases fullyChecked_decides_common hf kz_runnable k1_runnable with hd | hd
  · exact hd.notEquivalent.2 hne
  · exact absurd hd hexc

/-! ## The ZX checker -/

/-- Z on an ancillary qubit. -/
noncomputable def zA : QC 1 where
  ops := [.simple (.gate (gate1 mZ (0 : Fin 1)))]
  initialLayout := 1
  outputPermutation := [(0, 0)]
  ancillary := [true]

/-- Nothing on a data qubit. -/
noncomputable def eD : QC 1 where
  ops := []
  initialLayout := 1
  outputPermutation := [(0, 0)]

theorem one_wf {ops : List (Op 1)} {anc : List Bool} (h : ∀ o ∈ ops, o.Valid) :
    WellFormed ({ ops := ops, initialLayout := 1, outputPermutation := [(0, 0)], ancillary := anc } : QC 1) 1 := by
  refine .of_total h ⟨by simp, by simp⟩ ?_ ?_
  · intro q; exact ⟨(0, 0), by simp, by rw [Subsingleton.elim q 0]⟩
  · intro t ht
    simp only [List.mem_cons, List.not_mem_nil, or_false] at ht
    subst ht
    rfl

theorem zA_wf : WellFormed zA 1 := one_wf fun o ho => by
  simp only [List.mem_cons, List.not_mem_nil, or_false] at ho
  subst ho
  exact mZ_valid

theorem eD_wf : WellFormed eD 1 := one_wf fun o ho => absurd ho (by simp)

theorem zA_output (v : Basis 1 → ℂ) (b : Bool) : Spec.output zA 1 v (bit b) = (if b then -1 else 1) * v (bit b) := by
  simp only [Spec.output, readOut, execute, zA, Op.phys, SOp.phys, load, gate1_mulVec, update1]
  cases b <;> simp [bit, mZ] <;> rfl

theorem eD_output (v : Basis 1 → ℂ) (b : Bool) : Spec.output eD 1 v (bit b) = v (bit b) := rfl

noncomputable def signed : Mixed 0 1 := mixedOf zA eD zA_wf eD_wf

theorem signed_safe : signed.Safe := ⟨⟨fun _ => .disjoint fun _ _ _ _ => rfl, fun h => absurd trivial h⟩,
  fun _ => Or.inl fun q h => by obtain ⟨_, h⟩ := h; exact absurd h (by revert q; decide)⟩

theorem signed_different : ¬ SameUpToPhase (signed.bothAnc false) signed.qc1 signed.ω1 signed.qc2 signed.ω2 := by
  rintro ⟨c, hc, h⟩
  have e := h (fun _ => 1) (fun x _ q hq => by
    rw [Mixed.bothAnc, marks_get] at hq
    exact absurd hq (by revert q; decide))
  have e0 : Spec.output zA 1 (fun _ => 1) (bit false) = c * Spec.output eD 1 (fun _ => 1) (bit false) := congrFun e (bit false)
  have e1 : Spec.output zA 1 (fun _ => 1) (bit true) = c * Spec.output eD 1 (fun _ => 1) (bit true) := congrFun e (bit true)
  rw [zA_output, eD_output] at e0 e1
  simp only [Bool.false_eq_true, if_false, if_true, mul_one] at e0 e1
  rw [← e0] at e1
  norm_num at e1

/-- The circuits as the ZX checker sees their layouts. -/
def oneWire (anc : Nat) : Circ Unit :=
  { ndata := 1 - anc, nancillae := anc, initialLayout := [(0, 0)], outputPermutation := [(0, 0)], ancillary := [decide (anc = 1)], garbage := [false], ops := [] }

theorem one_represents {anc : Nat} (h : anc ≤ 1) : Represents (oneWire anc) (1 : Equiv.Perm (Fin 1)) 1 := by
  have key : ∀ p q : Nat, (p, q) ∈ [((0 : Nat), (0 : Nat))] ↔ ∃ i : Fin 1, p = i.val ∧ q = ((1 : Equiv.Perm (Fin 1)) i).val := by
    intro p q
    simp only [List.mem_singleton, Prod.mk.injEq]
    constructor
    · rintro ⟨rfl, rfl⟩; exact ⟨0, rfl, rfl⟩
    · rintro ⟨i, rfl, rfl⟩
      rw [Subsingleton.elim i 0]
      exact ⟨rfl, rfl⟩
  exact ⟨by show 1 - anc + anc = 1; omega, by simp [oneWire], key, by simp [oneWire], key⟩

theorem kept_clean {qc : QC 1} {k : Bool → ℂ} (h : ∀ v b, Spec.output qc 1 v (bit b) = k b * v (bit b)) : Clean (flags 0 1) qc 1 := by
  intro v hv x hx q hq
  refine hv x ?_ q hq
  intro h0
  apply hx
  rw [basis1 x, h, ← basis1, h0, mul_zero]

theorem no_data (outs : Fin 0 → Fin 1) (qc : QC 1) : KeepsData qc 1 outs :=
  ⟨fun i => i.elim0, fun w => ⟨fun ⟨i, _⟩ => i.elim0, fun h => absurd h (by omega)⟩⟩

theorem signed_zx : MAnswer signed true .zx .equivalent := by
  have outs : Fin 0 → Fin 1 := fun i => i.elim0
  refine .zx (S := signed) (c1 := oneWire 1) (c2 := oneWire 0) (one_represents (by omega)) (one_represents (by omega))
    (kept_clean (k := fun b => if b then -1 else 1) zA_output) (kept_clean (k := fun _ => 1) fun v b => by rw [one_mul]; exact eD_output v b)
    (fun i => i.elim0) (fun i => i.elim0) (no_data _ _) (no_data _ _) (wiresMiter (m := 0) (fun i => i.elim0) (fun i => i.elim0) 1) (wiresGraph 1) 1 ?_
    (fun i hi => absurd hi (by omega)) false (fun _ => rfl) _ (by decide)
  refine ⟨wires_tidy 1, ?_, by simp, by simp [wiresMiter], 1, one_pos, ?_⟩
  · have := wires_seen (m := 0) (fun i => i.elim0) (fun i => i.elim0) 1
    convert this using 1
  · have z : ∀ x : Basis 0, ∀ e : Fin 0 → Fin 1, embed e x = bit false := by
      intro x e
      funext q
      exact embed_off _ (by rintro ⟨i, _⟩; exact i.elim0)
    have s1 : wireMatrix zA (bit false) (bit false) = 1 := by
      show Spec.output zA 1 (Pi.single (bit false) 1) (bit false) = 1
      rw [zA_output]
      simp
    have s2 : wireMatrix eD (bit false) (bit false) = 1 := by
      show Spec.output eD 1 (Pi.single (bit false) 1) (bit false) = 1
      rw [eD_output]
      simp
    funext y x
    rw [Matrix.mul_apply, Matrix.smul_apply, wires_matrix, if_pos (fun i => i.elim0)]
    have p1 : ∀ y x, plugged signed.data signed.qc1 (fun i => i.elim0) y x = 1 := fun y x => by
      unfold plugged; rw [z, z]; exact s1
    have p2 : ∀ y x, plugged signed.data signed.qc2 (fun i => i.elim0) y x = 1 := fun y x => by
      unfold plugged; rw [z, z]; exact s2
    simp [p1, p2, Matrix.conjTranspose_apply]

/-- Z on an ancillary qubit. -/
noncomputable def kS : Circ WOp := { k1 with ops := [wGate mZ], ndata := 0, nancillae := 1, ancillary := [true] }
/-- No operation on a data qubit. -/
noncomputable def kE : Circ WOp := { k1 with ops := [] }

theorem kS_runnable : Runnable kS := ancillary_runnable (kRunnable [wGate mZ] (by simp))
theorem kE_runnable : Runnable kE := kRunnable [] (by simp)

theorem kS_numbered : Numbered (fun _ => (0 : Fin 1)) kS zA := by
  have := kNumbered [wGate mZ]
  refine ⟨this.width, this.inj, this.ops, this.initial, this.output, ?_, this.garbage⟩
  intro q hq
  have : q = 0 := by omega
  subst this
  rfl

/-- Only the ZX checker. -/
def zcfg : Configuration := testCfg false false false true 0 0

/-- **C90**, the exception `ZXMixed` is needed: two uninterrupted calls for the same circuits – Z on a qubit that only the first declares as ancillary, and no
operation – contradict each other.  With the ZX checker they are equivalent (it fixes the qubit in both), with the alternating checker they are not (it fixes
it in neither). -/
theorem zx_changes_verdict : FullyChecked VerifyWitness.plain conv kS kE acfg .notEquivalent ∧
    Checked VerifyWitness.plain conv kS kE zcfg .equivalent ∧ Runnable kS ∧ Runnable kE ∧ ZXMixed kS kE zcfg ∧
    ¬ ExcusedCommon VerifyWitness.plain kS kE acfg .notEquivalent := by
  have made : Prep.construct named nothingToDo acfg kS kE = .made { qc1 := kS, qc2 := kE, cfg := acfg } := rfl
  have madeZ : Prep.construct named nothingToDo zcfg kS kE = .made { qc1 := kS, qc2 := kE, cfg := zcfg } := rfl
  have hp : ∀ p ∈ planned acfg.optimizations true, Faithful nothingToDo p := fun p _ c hc => ⟨hc, rfl, fun _ => rfl, fun _ _ => rfl⟩
  have hexc : ∀ v, ¬ ExcusedCommon VerifyWitness.plain kS kE acfg v := by
    refine acfg_not_excused made ?_ ?_ rfl rfl (by simp [kS]) (by rintro (_ | q) ⟨a, b⟩ <;> simp [kS, kE, k1, Circ.isAncillary] at a b)
    · intro o ho
      simp only [kS, List.mem_cons, List.not_mem_nil, or_false] at ho
      subst ho
      exact ⟨_, rfl⟩
    · intro o ho
      exact absurd ho (by simp [kE])
  refine ⟨?_, ?_, kS_runnable, kE_runnable, ⟨rfl, fun h => absurd (h 0 (by decide) (by decide)) (by decide)⟩, hexc _⟩
  · obtain ⟨v, hv⟩ := calm_mixed (x := kS) (y := kE) signed signed_safe (fun q h => by obtain ⟨_, h⟩ := h; exact absurd h (by revert q; decide)) rfl kS_numbered (kNumbered _) made
    have hf : FullyChecked VerifyWitness.plain conv kS kE acfg v := fully hv rfl (Or.inl rfl)
    have key := mixed_constructed named_reliable kS_runnable kE_runnable hp made signed kS_numbered (kNumbered _)
    have hne : ¬ EqualCommonUpToPhase kS kE := by
      rintro ⟨k, hk, h⟩
      exact signed_different ⟨k, hk, (key k false (by simp)).2.2 h⟩
    rcases fullyChecked_decides_common hf kS_runnable kE_runnable with hd | hd
    · rwa [hd.notEquivalent.2 hne] at hf
    · exact absurd hd (hexc v)
  · let env := testEnv (fun _ => some .noInformation) (.returns .noInformation) (.returns .noInformation) (.returns .equivalent)
    have hm : mode env zcfg = .sequential := rfl
    obtain ⟨s', hr, he⟩ : ∃ s', Mgr.run env 20 (State.fresh zcfg) = some (.returned s') ∧ s'.results.equivalence = .equivalent := ⟨_, rfl, rfl⟩
    refine PartialRelationWitness.checked_of_run ⟨hp, _, madeZ, 0, 1, rfl, signed, _, _, kS_numbered, kNumbered _, ⟨fun _ => by decide, fun _ => trivial⟩,
      fun _ _ _ _ h => Bool.noConfusion h, ?_⟩ rfl
    rw [← he]
    refine .sequential env 20 s' hm (fun h => absurd h (lt_irrefl (0 : ℚ))) hr ?_
    rintro ⟨k, v⟩ h hen
    cases k
    · cases hen
    · cases hen
    · cases hen
    · cases h; exact signed_zx

end QCEC.Props.VerifyCommonWitness
