import Verif.Props.DetectionStimuli
/-!
# C92: the probability of the verdict for product states, random stabilizer states and classical inputs of more than 63 qubits
-/
namespace QCEC.Props
open QCEC QCEC.DD QCEC.Sem QCEC.Gen QCEC.ZX QCEC.Spec QCEC.Spec.ZX QCEC.Mgr QCEC.Prep QCEC.Par MeasureTheory

variable {m n : Nat} {R : Rng}

theorem checkerReq_random (hd : m ≤ n) (t : StateType) : (checkerReq n m t).random = m := by
  simp [checkerReq, Req.random]; omega

/-- A generator whose requests use up the random source in blocks. -/
theorem delivers_blocks (S : Setting m n) (next : R.σ → R.σ) (make : R.σ → Stim)
    (hone : ∀ (g g' : Generator R) (st : Stim), Generate g (checkerReq n m S.stateType) st g' → st = make g.mt ∧ g'.mt = next g.mt) :
    ∀ g : Generator R, Delivers S g fun i => make (next^[i] g.mt) := by
  intro g k
  induction k generalizing g with
  | zero =>
    intro sts g' h i st hi
    cases h
    simp at hi
  | succ k ih =>
    intro sts g' h i st hi
    rw [List.replicate_succ] at h
    cases h with
    | request _ g1 _ r st' evs sts hg hrest =>
      obtain ⟨h1, h2⟩ := hone _ _ _ hg
      cases i with
      | zero =>
        simp only [List.getElem?_cons_zero, Option.some.injEq] at hi
        rw [← hi, h1]
        rfl
      | succ i =>
        rw [List.getElem?_cons_succ] at hi
        have := ih _ _ _ hrest i st hi
        rw [this, h2]
        rfl

/-! ## Product states -/

theorem basis1_bijective : Function.Bijective (fun i : Fin 6 => basis1 i.1) := by
  refine ⟨by decide, fun b => ?_⟩
  cases b
  · exact ⟨0, rfl⟩
  · exact ⟨1, rfl⟩
  · exact ⟨2, rfl⟩
  · exact ⟨3, rfl⟩
  · exact ⟨4, rfl⟩
  · exact ⟨5, rfl⟩

theorem drawBases_ofFn (k : Nat) (w : R.σ) : (drawBases R k w).1 = List.ofFn fun i : Fin k => basis1 (die R i.1 w).1 := by
  induction k generalizing w with
  | zero => rfl
  | succ k ih =>
    rw [List.ofFn_succ]
    show basis1 (R.uniform 5 w).1 :: (drawBases R k (R.uniform 5 w).2).1 = _
    rw [ih]
    rfl

theorem after_iterate (hi j : Nat) (w : R.σ) : ∀ i : Nat, (fun w => after R hi j w)^[i] w = after R hi (i * j) w
  | 0 => by simp [after]
  | i + 1 => by
    rw [Function.iterate_succ_apply', after_iterate hi j w i, after_add, Nat.succ_mul]

theorem product_delivers (S : Setting m n) (ht : S.stateType = .random1QBasis) (g : Generator R) :
    Delivers S g fun k => productStim n fun i : Fin m => basis1 (die R (k * m + i.1) g.mt).1 := by
  have h := delivers_blocks S (fun w => after R 5 m w) (fun w => productStim n fun i : Fin m => basis1 (die R i.1 w).1) (by
    intro g g' st hg
    rw [ht] at hg
    cases hg with
    | narrow v mt bits ht' => cases ht'
    | wide bits ht' => cases ht'
    | stabilizer ht' => cases ht'
    | product _ =>
      have hr := checkerReq_random S.data .random1QBasis
      rw [hr]
      refine ⟨?_, (drawBases_spec m g.mt).1⟩
      rw [drawBases_ofFn]
      rfl) g
  intro k sts g' hh i st hi
  have := h k sts g' hh i st hi
  simp only at this
  rw [this, after_iterate]
  have hd : ∀ j : Fin m, die R j.1 (after R 5 (i * m) g.mt) = die R (i * m + j.1) g.mt := fun j => Fin.ext (drawn_add 5 j.1 (i * m) g.mt)
  simp only [hd]

open Classical in
/-- Those among finitely many that are not bad. -/
noncomputable def allBut {β : Type*} [Fintype β] (bad : β → Prop) : Finset β := Finset.univ.filter fun b => ¬ bad b

theorem mem_allBut {β : Type*} [Fintype β] (bad : β → Prop) (b : β) : b ∈ allBut bad ↔ ¬ bad b := by
  classical
  exact Finset.mem_filter.trans ⟨fun h => h.2, fun h => ⟨Finset.mem_univ b, h⟩⟩

theorem allBut_card {β : Type*} [Fintype β] (bad : β → Prop) : (allBut bad).card = Fintype.card β - {b | bad b}.ncard := by
  classical
  have h2 : {b | bad b} = ↑(Finset.univ.filter bad) := by ext b; simp
  have h3 := Finset.card_filter_add_card_filter_not (s := (Finset.univ : Finset β)) bad
  have h1 : allBut bad = Finset.univ.filter fun b => ¬ bad b := by
    ext b
    simp [mem_allBut]
  rw [h1, h2, Set.ncard_coe_finset, ← Finset.card_univ]
  omega

/-- The faces for which the circuits do not agree on the product stimulus. -/
def BadFaces (S : Setting m n) (d : Fin m → Fin 6) : Prop := DisagreeOn S (productStim n fun i => basis1 (d i).1)

theorem agreeingFaces_card (S : Setting m n) : (allBut (BadFaces S)).card = 6 ^ m - productDisagreements S := by
  rw [allBut_card]
  simp only [Fintype.card_fun, Fintype.card_fin]
  congr 1
  unfold productDisagreements
  let e : (Fin m → Fin 6) ≃ (Fin m → Basis1) := Equiv.piCongrRight fun _ => Equiv.ofBijective _ basis1_bijective
  have : {l : Fin m → Basis1 | DisagreeOn S (productStim n l)} =
      e '' {d | BadFaces S d} := by
    ext l
    constructor
    · intro hl
      refine ⟨e.symm l, ?_, e.apply_symm_apply l⟩
      show DisagreeOn S (productStim n (e (e.symm l)))
      rw [e.apply_symm_apply]
      exact hl
    · rintro ⟨d, hd, rfl⟩
      exact hd
  rw [this, Set.ncard_image_of_injective _ e.injective]

/-! ## Words -/

theorem wordsAfter_add (j : Nat) (w : R.σ) : ∀ i : Nat, wordsAfter R i (wordsAfter R j w) = wordsAfter R (j + i) w
  | 0 => rfl
  | i + 1 => by
    show (R.next (wordsAfter R i (wordsAfter R j w))).2 = _
    rw [wordsAfter_add j w i]
    rfl

theorem wordsAfter_iterate (j : Nat) (w : R.σ) : ∀ i : Nat, (fun w => wordsAfter R j w)^[i] w = wordsAfter R (i * j) w
  | 0 => by simp [wordsAfter]
  | i + 1 => by
    rw [Function.iterate_succ_apply', wordsAfter_iterate j w i, wordsAfter_add, Nat.succ_mul]

theorem word_add (i j : Nat) (w : R.σ) : word R i (wordsAfter R j w) = word R (j + i) w := by
  unfold word
  refine Fin.ext ?_
  show (R.next (wordsAfter R i (wordsAfter R j w))).1 = (R.next (wordsAfter R (j + i) w)).1
  rw [wordsAfter_add]

/-! ## Stabilizer states -/

theorem stabilizer_delivers (S : Setting m n) (ht : S.stateType = .stabilizer) (g : Generator R) :
    Delivers S g fun k => .stabilizer m (word R k g.mt).1 (n - m) := by
  have h := delivers_blocks S (fun w => wordsAfter R 1 w) (fun w => .stabilizer m (word R 0 w).1 (n - m)) (by
    intro g g' st hg
    rw [ht] at hg
    cases hg with
    | narrow v mt bits ht' => cases ht'
    | wide bits ht' => cases ht'
    | product ht' => cases ht'
    | stabilizer _ =>
      have hr := checkerReq_random S.data .stabilizer
      rw [hr]
      exact ⟨rfl, rfl⟩) g
  intro k sts g' hh i st hi
  have := h k sts g' hh i st hi
  simp only at this
  rw [this, wordsAfter_iterate, word_add, Nat.mul_one, Nat.add_zero]

/-- The seeds for which the circuits do not agree on the stabilizer state. -/
def BadSeed (S : Setting m n) (b : Nat) (d : Fin 1 → Fin b) : Prop := DisagreeOn S (.stabilizer m (d 0).1 (n - m))

theorem agreeingSeeds_card (S : Setting m n) (b : Nat) :
    (allBut (BadSeed S b)).card = b - {seed : Fin b | DisagreeOn S (.stabilizer m seed.1 (n - m))}.ncard := by
  rw [allBut_card]
  simp only [Fintype.card_fun, Fintype.card_fin, pow_one, Fintype.card_unique]
  congr 1
  have : {seed : Fin b | DisagreeOn S (.stabilizer m seed.1 (n - m))} = (Equiv.funUnique (Fin 1) (Fin b)) '' {d | BadSeed S b d} := by
    ext l
    constructor
    · exact fun hl => ⟨fun _ => l, hl, rfl⟩
    · rintro ⟨d, hd, rfl⟩
      exact hd
  rw [this, Set.ncard_image_of_injective _ (Equiv.injective _)]

/-! ## Classical inputs of more than 63 qubits -/

/-- The bit of data qubit `i` in words of `b` bits. -/
def bitAt {L b : Nat} (d : Fin L → Fin (2 ^ b)) (i : Nat) : Bool := if h : i / b < L then (d ⟨i / b, h⟩).1.testBit (i % b) else false

/-- The classical input that the words describe. -/
def wordsInput (m n : Nat) {L b : Nat} (d : Fin L → Fin (2 ^ b)) : Basis n := fun q => decide (q.1 < m) && bitAt d q.1

/-- Words with given bits. -/
def wordsOf (L b : Nat) (f : Nat → Bool) : Fin L → Fin (2 ^ b) := fun j => ⟨Nat.ofBits (n := b) fun i => f (j.1 * b + i.1), Nat.ofBits_lt_two_pow _⟩

theorem bitAt_wordsOf {L b i : Nat} (hb : 0 < b) (hi : i < L * b) (f : Nat → Bool) : bitAt (wordsOf L b f) i = f i := by
  have h1 : i / b < L := by rw [Nat.div_lt_iff_lt_mul hb]; exact hi
  unfold bitAt wordsOf
  rw [dif_pos h1]
  simp only [Nat.testBit_ofBits_lt _ _ (Nat.mod_lt i hb)]
  congr 1
  rw [Nat.mul_comm]
  exact Nat.div_add_mod i b

/-- Bitwise exclusive or. -/
def flip {L b : Nat} (u d : Fin L → Fin (2 ^ b)) : Fin L → Fin (2 ^ b) := fun j => ⟨(u j).1 ^^^ (d j).1, Nat.xor_lt_two_pow (u j).2 (d j).2⟩

theorem flip_flip {L b : Nat} (u d : Fin L → Fin (2 ^ b)) : flip u (flip u d) = d := by
  funext j
  refine Fin.ext ?_
  show (u j).1 ^^^ ((u j).1 ^^^ (d j).1) = (d j).1
  rw [← Nat.xor_assoc, Nat.xor_self, Nat.zero_xor]

theorem bitAt_flip {L b : Nat} (u d : Fin L → Fin (2 ^ b)) (i : Nat) : bitAt (flip u d) i = (bitAt u i ^^ bitAt d i) := by
  unfold bitAt flip
  split
  · simp [Nat.testBit_xor]
  · rfl

/-- Every classical input is described by equally many lists of words. -/
theorem fiber_card {L b : Nat} (hb : 0 < b) (hL : m ≤ L * b) (v : Fin (2 ^ m)) :
    (Finset.univ.filter fun d : Fin L → Fin (2 ^ b) => wordsInput m n d = inputOf m n v).card =
      (Finset.univ.filter fun d : Fin L → Fin (2 ^ b) => wordsInput m n d = inputOf m n ⟨0, Nat.two_pow_pos m⟩).card := by
  let u := wordsOf L b fun i => v.1.testBit i
  have hu : ∀ i, i < m → bitAt u i = v.1.testBit i := fun i hi => bitAt_wordsOf hb (by omega) _
  have key : ∀ d : Fin L → Fin (2 ^ b), wordsInput m n (flip u d) = inputOf m n v ↔ wordsInput m n d = inputOf m n ⟨0, Nat.two_pow_pos m⟩ := by
    intro d
    simp only [funext_iff]
    refine forall_congr' fun q => ?_
    unfold wordsInput inputOf
    rw [bitAt_flip]
    by_cases hq : q.1 < m
    · rw [hu _ hq]
      simp [hq]
      cases v.1.testBit q.1 <;> cases bitAt d q.1 <;> simp
    · simp [hq]
  refine Finset.card_bij' (fun d _ => flip u d) (fun d _ => flip u d) ?_ ?_ (fun d _ => flip_flip u d) fun d _ => flip_flip u d
  · intro d hd
    rw [Finset.mem_filter] at hd ⊢
    refine ⟨Finset.mem_univ _, (key _).mp ?_⟩
    rw [flip_flip]
    exact hd.2
  · intro d hd
    rw [Finset.mem_filter] at hd ⊢
    exact ⟨Finset.mem_univ _, (key _).mpr hd.2⟩

theorem wordsInput_free {L b : Nat} (d : Fin L → Fin (2 ^ b)) : AncillaFree m (wordsInput m n d) := by
  intro q hq
  simp [wordsInput, Nat.not_lt.mpr hq]

/-- The words that describe an input on which the circuits do not agree. -/
def BadWords (S : Setting m n) (L b : Nat) (d : Fin L → Fin (2 ^ b)) : Prop := Disagree S (wordsInput m n d)

theorem agreeingWords_card (S : Setting m n) {L b : Nat} (hb : 0 < b) (hL : m ≤ L * b) :
    ∃ c, 0 < c ∧ (allBut (BadWords S L b)).card = (2 ^ m - disagreements S) * c ∧ (2 ^ b) ^ L = 2 ^ m * c := by
  classical
  let c := (Finset.univ.filter fun d : Fin L → Fin (2 ^ b) => wordsInput m n d = inputOf m n ⟨0, Nat.two_pow_pos m⟩).card
  -- the number of the input
  have hnum : ∀ d : Fin L → Fin (2 ^ b), ∃ v : Fin (2 ^ m), wordsInput m n d = inputOf m n v := by
    intro d
    obtain ⟨v, _, hv⟩ := (inputOf_bijective S.data).surjOn (wordsInput_free d)
    exact ⟨v, hv.symm⟩
  choose num hnum using hnum
  have hiff : ∀ (d : Fin L → Fin (2 ^ b)) (v : Fin (2 ^ m)), num d = v ↔ wordsInput m n d = inputOf m n v := by
    intro d v
    constructor
    · rintro rfl
      exact hnum d
    · intro h
      exact (inputOf_bijective S.data).injOn trivial trivial ((hnum d).symm.trans h)
  have hfib : ∀ (s : Finset (Fin L → Fin (2 ^ b))) (v : Fin (2 ^ m)), (∀ d, wordsInput m n d = inputOf m n v → d ∈ s) →
      (s.filter fun d => num d = v).card = c := by
    intro s v hs
    refine Eq.trans ?_ (fiber_card (n := n) hb hL v)
    congr 1
    ext d
    simp only [Finset.mem_filter, Finset.mem_univ, true_and, hiff]
    exact ⟨fun h => h.2, fun h => ⟨hs d h, h⟩⟩
  have htotal : (2 ^ b) ^ L = 2 ^ m * c := by
    have h1 := Finset.card_eq_sum_card_fiberwise (f := num) (s := (Finset.univ : Finset (Fin L → Fin (2 ^ b))))
      (t := (Finset.univ : Finset (Fin (2 ^ m)))) fun _ _ => Finset.mem_univ _
    rw [Finset.sum_congr rfl fun v _ => hfib Finset.univ v fun d _ => Finset.mem_univ d, Finset.sum_const, Finset.card_univ,
      Finset.card_univ, smul_eq_mul, Fintype.card_fun, Fintype.card_fin, Fintype.card_fin, Fintype.card_fin] at h1
    exact h1
  refine ⟨c, ?_, ?_, htotal⟩
  · by_contra h0
    have h0 : c = 0 := by omega
    rw [h0, Nat.mul_zero] at htotal
    have : 0 < (2 ^ b) ^ L := by positivity
    omega
  · have h1 := Finset.card_eq_sum_card_fiberwise (f := num) (s := allBut (BadWords S L b)) (t := agreeing S) (by
      intro d hd
      have hd := (mem_allBut _ d).mp hd
      refine (mem_agreeing S _).mpr ?_
      rw [← hnum d]
      exact hd)
    rw [Finset.sum_congr rfl fun v hv => hfib _ v (fun d hd => (mem_allBut _ d).mpr (by
      unfold BadWords
      rw [hd]
      exact (mem_agreeing S v).mp hv)), Finset.sum_const, smul_eq_mul, agreeing_card] at h1
    exact h1

/-- The stimulus that the words describe. -/
def wideStim (m n : Nat) {L b : Nat} (d : Fin L → Fin (2 ^ b)) : Stim := .basis ((List.range n).map fun i => decide (i < m) && bitAt d i)

theorem wideStim_disagree (S : Setting m n) {L b : Nat} (d : Fin L → Fin (2 ^ b)) :
    DisagreeOn S (wideStim m n d) ↔ Disagree S (wordsInput m n d) := by
  have hb : (fun q : Fin n => ((List.range n).map fun i => decide (i < m) && bitAt d i).getD q.1 false) = wordsInput m n d := by
    funext q
    rw [List.getD_eq_getElem _ _ (by simp)]
    simp [wordsInput]
  constructor
  · rintro ⟨x, hx, hno⟩
    have := denotes_basis hx
    rw [hb] at this
    rw [this] at hno
    exact ⟨wordsInput_free d, hno⟩
  · rintro ⟨_, hno⟩
    refine ⟨_, .basis _, ?_⟩
    have := denotes_basis (n := n) (.basis (cliff := S.cliff) ((List.range n).map fun i => decide (i < m) && bitAt d i))
    rw [this, hb]
    exact hno

theorem wide_delivers (S : Setting m n) (ht : S.stateType = .computationalBasis) (h63 : 63 < m) (g : Generator R) :
    Delivers S g fun k => wideStim m n fun j : Fin ((m + 63) / 64) => word R (k * ((m + 63) / 64) + j.1) g.mt := by
  have h := delivers_blocks S (fun w => wordsAfter R ((m + 63) / 64) w)
    (fun w => wideStim m n fun j : Fin ((m + 63) / 64) => word R j.1 w) (by
    intro g g' st hg
    rw [ht] at hg
    have hr := checkerReq_random S.data .computationalBasis
    obtain ⟨bits, rfl, hlen, hbits, hmt, _⟩ := wide_bits hg rfl (by rw [hr]; exact h63) (by simp [checkerReq])
    have hshape := (stimulus_shape hg (by simp [checkerReq])).2
    rw [hr] at hmt hbits
    refine ⟨?_, hmt⟩
    unfold wideStim
    congr 1
    refine List.ext_getElem? fun i => ?_
    by_cases hi : i < m
    · rw [hbits i hi, List.getElem?_map, List.getElem?_range (by have := S.data; omega)]
      have hj : i / 64 < (m + 63) / 64 := by omega
      simp only [Option.map_some, hi, decide_true, Bool.true_and, bitAt, hj, dif_pos]
      rfl
    · by_cases hn : i < n
      · have hz : bits[i]? = some false := hshape i (by show n - (n - m) ≤ i; omega) hn
        rw [hz, List.getElem?_map, List.getElem?_range hn]
        simp [hi]
      · rw [List.getElem?_eq_none (by rw [hlen]; show n ≤ i; omega), List.getElem?_eq_none (by simp; omega)]) g
  intro k sts g' hh i st hi
  have := h k sts g' hh i st hi
  simp only at this
  rw [this, wordsAfter_iterate]
  simp only [word_add]

/-! ## The probability of the verdict -/

section Probability
variable [MeasurableSpace R.σ] {μ : Measure R.σ}

/-- The stimuli and their law. -/
theorem stimuli_law (S : Setting m n) (hμ : IdealStimuli S R μ) (seed : Nat) :
    IsProbabilityMeasure μ ∧ ∃ T : R.σ → Nat → Stim, (∀ w, Delivers S ⟨seed, w, []⟩ (T w)) ∧
      ∀ K : Nat, MeasurableSet {w | ∀ k < K, ¬ DisagreeOn S (T w k)} ∧ μ {w | ∀ k < K, ¬ DisagreeOn S (T w k)} = agreement S ^ K := by
  unfold IdealStimuli at hμ
  unfold agreement
  split at hμ
  · rename_i ht
    obtain ⟨h63, hμ⟩ := hμ
    refine ⟨hμ.prob, _, fun w => wide_delivers S ht h63 _, fun K => ?_⟩
    have hset : {w : R.σ | ∀ k < K, ¬ DisagreeOn S (wideStim m n fun j : Fin ((m + 63) / 64) => word R (k * ((m + 63) / 64) + j.1) w)} =
        {w | ∀ k < K, (fun j : Fin ((m + 63) / 64) => word R (k * ((m + 63) / 64) + j.1) w) ∈ allBut (BadWords S ((m + 63) / 64) 64)} := by
      ext w
      simp only [Set.mem_ofPred_eq, mem_allBut, wideStim_disagree]
      exact Iff.rfl
    simp only [hset]
    refine ⟨measurable_blocks hμ K _ _, ?_⟩
    rw [blocks_prob hμ K _ _]
    obtain ⟨c, hc, h1, h2⟩ := agreeingWords_card S (L := (m + 63) / 64) (b := 64) (by decide) (by omega)
    congr 1
    rw [h1, Fintype.card_fin, h2, Nat.cast_mul, Nat.cast_mul]
    exact ENNReal.mul_div_mul_right _ _ (by exact_mod_cast hc.ne') (ENNReal.natCast_ne_top _)
  · rename_i ht
    refine ⟨hμ.prob, _, fun w => product_delivers S ht _, fun K => ?_⟩
    have hset : {w : R.σ | ∀ k < K, ¬ DisagreeOn S (productStim n fun i : Fin m => basis1 (die R (k * m + i.1) w).1)} =
        {w | ∀ k < K, (fun i : Fin m => die R (k * m + i.1) w) ∈ allBut (BadFaces S)} := by
      ext w
      simp only [Set.mem_ofPred_eq, mem_allBut]
      exact Iff.rfl
    simp only [hset]
    refine ⟨measurable_blocks hμ K _ _, ?_⟩
    rw [blocks_prob hμ K _ _, agreeingFaces_card, Fintype.card_fin]
  · rename_i ht
    refine ⟨hμ.prob, _, fun w => stabilizer_delivers S ht _, fun K => ?_⟩
    have hset : {w : R.σ | ∀ k < K, ¬ DisagreeOn S (.stabilizer m (word R k w).1 (n - m))} =
        {w | ∀ k < K, (fun i : Fin 1 => word R (k * 1 + i.1) w) ∈ allBut (BadSeed S (2 ^ 64))} := by
      ext w
      simp only [Set.mem_ofPred_eq, mem_allBut, BadSeed, Nat.mul_one, Fin.val_zero, Nat.add_zero]
    simp only [hset]
    refine ⟨measurable_blocks hμ K _ _, ?_⟩
    rw [blocks_prob hμ K _ _, agreeingSeeds_card, Fintype.card_fin, pow_one]
    rfl

/-- **C92**: with an idealised random source, a run of `K` simulations with product states, stabilizer states or classical stimuli of more
than 63 qubits and no other checker reports `ProbablyEquivalent` with probability `p^K`, `p` being the fraction of the stimuli on which the
circuits agree, and `NotEquivalent` with the remaining probability. -/
theorem stimuli_probability (S : Setting m n) (hμ : IdealStimuli S R μ) {K : Nat} (seed : Nat) (env : R.σ → Env) (s s' : R.σ → State)
    (hrun : ∀ᵐ w ∂μ, RunWith S K R ⟨seed, w, []⟩ (env w) (s w) (s' w)) (honly : ∀ w, OnlySimulations (s w)) :
    μ {w | (s' w).results.equivalence = .probablyEquivalent} = agreement S ^ K ∧
    μ {w | (s' w).results.equivalence = .notEquivalent} = 1 - agreement S ^ K := by
  obtain ⟨hprob, T, hT, hlaw⟩ := stimuli_law S hμ seed
  obtain ⟨hm, hp⟩ := hlaw K
  rw [← hp]
  constructor
  · refine measure_congr ?_
    filter_upwards [hrun] with w hw
    exact propext (stimuli_verdict S (hT w) hw (honly w)).1
  · rw [← prob_compl_eq_one_sub hm]
    refine measure_congr ?_
    filter_upwards [hrun] with w hw
    exact propext (stimuli_verdict S (hT w) hw (honly w)).2

/-- **C92** (any checkers): whatever other checkers are configured, the probability of `ProbablyEquivalent` is at most that. -/
theorem stimuli_bound (S : Setting m n) (hμ : IdealStimuli S R μ) {K : Nat} (seed : Nat) (env : R.σ → Env) (s s' : R.σ → State)
    (hrun : ∀ᵐ w ∂μ, RunWith S K R ⟨seed, w, []⟩ (env w) (s w) (s' w))
    (hans : ∀ (w : R.σ) (e : Event), FromEnv (env w) e → e.kind = .alternating ∨ e.kind = .construction → Answer S true e.kind e.verdict) :
    μ {w | (s' w).results.equivalence = .probablyEquivalent} ≤ agreement S ^ K := by
  obtain ⟨hprob, T, hT, hlaw⟩ := stimuli_law S hμ seed
  rw [← (hlaw K).2]
  refine measure_mono_ae ?_
  filter_upwards [hrun] with w hw hv
  exact probably_equivalent_stimuli S (hT w) hw (definite_answers S (hans w)) hv

/-- **C92** (parallel): a parallel run – each scheduled in any way, even one that depends on the stimuli – reports them with exactly the same
probabilities. -/
theorem parallel_stimuli_probability (S : Setting m n) (hμ : IdealStimuli S R μ) {K : Nat} (seed : Nat) (env : R.σ → ParEnv)
    (cfg : R.σ → Configuration) (res : R.σ → Results) (s : R.σ → PState)
    (hrun : ∀ᵐ w ∂μ, ParallelRunWith S K R ⟨seed, w, []⟩ (env w) (cfg w) (res w) (s w)) (honly : ∀ w, NothingElse (cfg w)) :
    μ {w | (s w).results.equivalence = .probablyEquivalent} = agreement S ^ K ∧
    μ {w | (s w).results.equivalence = .notEquivalent} = 1 - agreement S ^ K := by
  obtain ⟨hprob, T, hT, hlaw⟩ := stimuli_law S hμ seed
  obtain ⟨hm, hp⟩ := hlaw K
  rw [← hp]
  constructor
  · refine measure_congr ?_
    filter_upwards [hrun] with w hw
    exact propext (parallel_stimuli_verdict S (hT w) hw (honly w)).1
  · rw [← prob_compl_eq_one_sub hm]
    refine measure_congr ?_
    filter_upwards [hrun] with w hw
    exact propext (parallel_stimuli_verdict S (hT w) hw (honly w)).2

/-- **C92** (parallel, any checkers). -/
theorem parallel_stimuli_bound (S : Setting m n) (hμ : IdealStimuli S R μ) {K : Nat} (seed : Nat) (env : R.σ → ParEnv)
    (cfg : R.σ → Configuration) (res : R.σ → Results) (s : R.σ → PState)
    (hrun : ∀ᵐ w ∂μ, ParallelRunWith S K R ⟨seed, w, []⟩ (env w) (cfg w) (res w) (s w))
    (hans : ∀ w k c, Enabled (cfg w) k → k ≠ .simulation → (env w).may k c → Answer S false k c) :
    μ {w | (s w).results.equivalence = .probablyEquivalent} ≤ agreement S ^ K := by
  obtain ⟨hprob, T, hT, hlaw⟩ := stimuli_law S hμ seed
  rw [← (hlaw K).2]
  refine measure_mono_ae ?_
  filter_upwards [hrun] with w hw hv
  exact parallel_probably_equivalent_stimuli S (hT w) hw (hans w) hv

end Probability

end QCEC.Props
