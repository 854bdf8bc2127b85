import Verif.Spec.WidePartial
import Verif.Spec.PartialEquivalence
import Verif.Lemmas.WideBridge
/-!
# Lemmas: preparing the circuits does not change measurement probabilities
-/
namespace QCEC.Wide
open QCEC QCEC.Prep QCEC.Spec QCEC.Spec.Wide QCEC.Sem

variable {acts : WOp → Nat → Bool} {R : List Nat} {c r c2 r2 : Circ WOp}

/-! ## Zero -/

theorem wsop_zero (s : WSOp) : s.run (fun _ => 0) = fun _ => 0 := by
  cases s with
  | gate g => funext x; simp [WSOp.run]
  | swap a b => rfl
  | barrier _ => rfl

theorem run_zero (ops : List WOp) : Wide.run ops (fun _ => 0) = fun _ => 0 := by
  unfold Wide.run
  induction ops.flatMap WOp.parts with
  | nil => rfl
  | cons s l ih => rw [List.foldl_cons, wsop_zero, ih]

theorem output_zero (c : Circ WOp) : Wide.output c (fun _ => 0) = fun _ => 0 := by
  funext x
  unfold Wide.output
  rw [run_zero]

theorem probability_zero (N : Nat) (M : Nat → Prop) (k : Bits) : probability N M (fun _ => 0) k = 0 := by
  unfold probability
  simp

/-! ## Splitting the sum over the outcomes -/

/-- The removed qubits as in `X`, the others as in `x'`. -/
noncomputable def merge (R : List Nat) (X x' : Bits) : Bits := fun q => if q ∈ R then X q else x' (newIndex R q)

theorem merge_old (X x' : Bits) : merge R X x' ∘ oldIndex R = x' := by
  funext q'
  simp only [merge, Function.comp_apply]
  rw [if_neg (oldIndex_kept R q'), newIndex_oldIndex]

theorem restrictIn_merge (v : Bits → ℂ) (X x' : Bits) : restrictIn R v (merge R X x') = restrictIn R v X := by
  funext y'
  simp only [restrictIn, merge]
  congr 1
  funext q
  split <;> rfl

theorem old_lt {N q' : Nat} (h : q' < newIndex R N) : oldIndex R q' < N := by
  rw [← newIndex_lt_iff (oldIndex_kept R q'), newIndex_oldIndex]
  exact h

open Classical in
theorem probability_split {N : Nat} (M : Nat → Prop) (w : Bits → ℂ) (k : Bits) :
    probability N M w k = ∑ b : Fin N → Bool, if (∀ q : Fin N, q.val ∉ R → b q = false) ∧ (∀ q : Fin N, q.val ∈ R → M q → b q = k q) then
      probability (newIndex R N) (M ∘ oldIndex R) (fun x' => w (merge R (fill b k) x')) (k ∘ oldIndex R) else 0 := by
  unfold probability
  let g : (Fin N → Bool) → (Fin N → Bool) := fun y q => if q.val ∈ R then y q else false
  rw [← Finset.sum_fiberwise Finset.univ g]
  refine Finset.sum_congr rfl fun b _ => ?_
  by_cases h1 : ∀ q : Fin N, q.val ∉ R → b q = false
  · by_cases h2 : ∀ q : Fin N, q.val ∈ R → M q → b q = k q
    · rw [if_pos ⟨h1, h2⟩]
      refine Finset.sum_nbij' (fun y q' => y ⟨oldIndex R q'.val, old_lt q'.isLt⟩)
        (fun y' q => if hq : q.val ∈ R then b q else y' ⟨newIndex R q.val, (newIndex_lt_iff hq N).2 q.isLt⟩) ?_ ?_ ?_ ?_ ?_
      · intro y _; exact Finset.mem_univ _
      · intro y' _
        rw [Finset.mem_filter]
        refine ⟨Finset.mem_univ _, ?_⟩
        funext q
        by_cases hq : q.val ∈ R
        · simp only [g, if_pos hq, dif_pos hq]
        · simp only [g, if_neg hq, h1 q hq]
      · intro y hy
        rw [Finset.mem_filter] at hy
        funext q
        by_cases hq : q.val ∈ R
        · have := congrFun hy.2 q
          simp only [g, if_pos hq] at this
          simp only [dif_pos hq, this]
        · simp only [dif_neg hq, oldIndex_newIndex hq]
      · intro y' _
        funext q'
        have := oldIndex_kept R q'.val
        simp only [dif_neg this, newIndex_oldIndex]
      · intro y hy
        rw [Finset.mem_filter] at hy
        have hb : ∀ q : Fin N, q.val ∈ R → y q = b q := by
          intro q hq
          have := congrFun hy.2 q
          simp only [g, if_pos hq] at this
          exact this
        have hiff : (∀ q : Fin N, M q.val → y q = k q.val) ↔
            ∀ q' : Fin (newIndex R N), (M ∘ oldIndex R) q'.val → y ⟨oldIndex R q'.val, old_lt q'.isLt⟩ = (k ∘ oldIndex R) q'.val := by
          constructor
          · intro h q' hq'
            exact h ⟨oldIndex R q'.val, old_lt q'.isLt⟩ hq'
          · intro h q hq
            by_cases hR : q.val ∈ R
            · rw [hb q hR]; exact h2 q hR hq
            · have := h ⟨newIndex R q.val, (newIndex_lt_iff hR N).2 q.isLt⟩
              simp only [Function.comp_apply, oldIndex_newIndex hR] at this
              exact this hq
        have hx : fill y k = merge R (fill b k) (fill (fun q' : Fin (newIndex R N) => y ⟨oldIndex R q'.val, old_lt q'.isLt⟩) (k ∘ oldIndex R)) := by
          funext q
          unfold merge fill
          by_cases hR : q ∈ R
          · rw [if_pos hR]
            by_cases hN : q < N
            · rw [dif_pos hN, dif_pos hN, hb ⟨q, hN⟩ hR]
            · rw [dif_neg hN, dif_neg hN]
          · rw [if_neg hR]
            by_cases hN : q < N
            · rw [dif_pos hN, dif_pos ((newIndex_lt_iff hR N).2 hN)]
              simp only [oldIndex_newIndex hR]
            · rw [dif_neg hN, dif_neg (fun h => hN ((newIndex_lt_iff hR N).1 h)), Function.comp_apply, oldIndex_newIndex hR]
        rw [hx]
        by_cases h : ∀ q : Fin N, M q.val → y q = k q.val
        · rw [if_pos h, if_pos (hiff.1 h)]
        · rw [if_neg h, if_neg (fun h' => h (hiff.2 h'))]
    · rw [if_neg (fun h => h2 h.2)]
      refine Finset.sum_eq_zero fun y hy => ?_
      rw [Finset.mem_filter] at hy
      rw [if_neg]
      intro h
      apply h2
      intro q hq hM
      have := congrFun hy.2 q
      simp only [g, if_pos hq] at this
      rw [← this]
      exact h q hM
  · rw [if_neg (fun h => h1 h.1)]
    refine Finset.sum_eq_zero fun y hy => ?_
    rw [Finset.mem_filter] at hy
    exfalso
    apply h1
    intro q hq
    have := congrFun hy.2 q
    simp only [g, if_neg hq] at this
    exact this.symm

/-! ## Removing idle qubits -/

open Classical in
theorem probability_stripped (hacts : Reliable acts) (hc : Runnable c) (hr : CircOk r) (h : Stripped acts R c r) {N : Nat} (M : Nat → Prop)
    (v : Bits → ℂ) (k : Bits) :
    probability N M (Wide.output c v) k =
      ∑ b : Fin N → Bool, if (∀ q : Fin N, q.val ∉ R → b q = false) ∧ (∀ q : Fin N, q.val ∈ R → M q → b q = k q) then
        probability (newIndex R N) (M ∘ oldIndex R) (Wide.output r (restrictIn R v (fill b k))) (k ∘ oldIndex R) else 0 := by
  rw [probability_split (R := R)]
  refine Finset.sum_congr rfl fun b _ => ?_
  have e : (fun x' => Wide.output c v (merge R (fill b k) x')) = Wide.output r (restrictIn R v (fill b k)) := by
    funext x'
    rw [output_stripped hacts hc hr h, merge_old, restrictIn_merge]
  rw [e]

theorem key_unique {l : Layout} (h : (l.map Prod.fst).Pairwise (· < ·)) {p q q' : Nat} (a : (p, q) ∈ l) (b : (p, q') ∈ l) : q = q' := by
  have hn : (l.map Prod.fst).Nodup := h.imp (fun h => Nat.ne_of_lt h)
  have := List.inj_on_of_nodup_map hn a b rfl
  exact congrArg Prod.snd this

theorem value_unique {l : Layout} (h : (l.map Prod.snd).Nodup) {p p' q : Nat} (a : (p, q) ∈ l) (b : (p', q) ∈ l) : p = p' := by
  have := List.inj_on_of_nodup_map h a b rfl
  exact congrArg Prod.fst this

theorem newIndex_kept_inj {q q' : Nat} (h : q ∉ R) (h' : q' ∉ R) (e : newIndex R q = newIndex R q') : q = q' := by
  rw [← oldIndex_newIndex h, ← oldIndex_newIndex h', e]

theorem labelled_stripped (hc : CircOk c) (h : Stripped acts R c r) {q : Nat} (hq : q ∉ R) : Labelled r (newIndex R q) ↔ Labelled c q := by
  constructor
  · rintro ⟨p, q', h1, h2⟩
    obtain ⟨q0, a, b, e⟩ := (h.initial _ _).1 h1
    obtain ⟨q1, x, _, _⟩ := (h.output _ _).1 h2
    have := newIndex_kept_inj hq b e
    subst this
    exact ⟨p, q1, a, x⟩
  · rintro ⟨p, q', h1, h2⟩
    refine ⟨p, newIndex R q', (h.initial _ _).2 ⟨q, h1, hq, rfl⟩, (h.output _ _).2 ⟨q', h2, fun hR => hq ?_, rfl⟩⟩
    obtain ⟨p', hp'⟩ := (hc.onto q').2 (hc.outRange _ _ h2)
    rcases (h.idle q' hR p' hp').2 with hs | hs
    · have e1 := value_unique hc.outInj hs h2
      subst e1
      rw [key_unique hc.keys h1 hp']
      exact hR
    · exact absurd h2 (hs.2 p)

theorem reads_stripped (hc : CircOk c) (h : Stripped acts R c r) (h2 : Stripped acts R c2 r2) {q : Nat} (hq : q ∉ R) :
    Reads r r2 (newIndex R q) ↔ Reads c c2 q := by
  unfold Reads
  have e : r2.nqubits ≤ newIndex R q ↔ c2.nqubits ≤ q := by
    rw [h2.width, ← not_lt, ← not_lt, newIndex_lt_iff hq]
  rw [h.width, newIndex_lt_iff hq, e, labelled_stripped hc h hq]
  constructor
  · rintro ⟨a, x, l⟩
    exact ⟨a, by rw [← (h.flags q a hq).2]; exact x, l⟩
  · rintro ⟨a, x, l⟩
    exact ⟨a, by rw [(h.flags q a hq).2]; exact x, l⟩

theorem measured_stripped (hc : CircOk c) (hc2 : CircOk c2) (h : Stripped acts R c r) (h2 : Stripped acts R c2 r2) {q : Nat} (hq : q ∉ R) :
    Measured r r2 (newIndex R q) ↔ Measured c c2 q := by
  unfold Measured
  rw [reads_stripped hc h h2 hq, reads_stripped hc2 h2 h hq]

theorem measured_old (hc : CircOk c) (hc2 : CircOk c2) (h : Stripped acts R c r) (h2 : Stripped acts R c2 r2) :
    Measured c c2 ∘ oldIndex R = Measured r r2 := by
  funext q'
  have := measured_stripped hc hc2 h h2 (oldIndex_kept R q')
  rw [newIndex_oldIndex] at this
  exact propext this.symm

theorem max_stripped (h : Stripped acts R c r) (h2 : Stripped acts R c2 r2) : newIndex R (max c.nqubits c2.nqubits) = max r.nqubits r2.nqubits := by
  rw [h.width, h2.width]
  rcases Nat.le_total c.nqubits c2.nqubits with hle | hle
  · rw [Nat.max_eq_right hle, Nat.max_eq_right (newIndex_mono R hle)]
  · rw [Nat.max_eq_left hle, Nat.max_eq_left (newIndex_mono R hle)]

/-- The circuits agree on all inputs of a class in which the qubits in `F` are `|0⟩`. -/
def AgreeOn (Q : (Bits → ℂ) → Prop) (F : Nat → Prop) (c1 c2 : Circ WOp) : Prop := ∀ v, Q v → Zero F v → ∀ k, SameProbability c1 c2 v k

open Classical in
/-- An input of the circuit in which the removed qubits are 0. -/
noncomputable def liftIn (R : List Nat) (v' : Bits → ℂ) : Bits → ℂ := fun y => if ∀ q ∈ R, y q = false then v' (y ∘ oldIndex R) else 0

theorem agree_stripped (hacts : Reliable acts) (hc : Runnable c) (hc2 : Runnable c2) (h : Stripped acts R c r)
    (h2 : Stripped acts R c2 r2) (hr : CircOk r) (hr2 : CircOk r2) (hR : ∀ q ∈ R, q < max c.nqubits c2.nqubits) {F F' : Nat → Prop}
    (hF : ∀ {q}, q ∉ R → (F' (newIndex R q) ↔ F q)) {Q : (Bits → ℂ) → Prop}
    (q1 : ∀ v X, Q v → Q (restrictIn R v X) ∨ restrictIn R v X = fun _ => 0) (q2 : ∀ v', Q v' → Q (liftIn R v')) :
    AgreeOn Q F' r r2 ↔ AgreeOn Q F c c2 := by
  constructor
  · intro he v hv hz k
    unfold SameProbability
    rw [probability_stripped hacts hc hr h, probability_stripped hacts hc2 hr2 h2]
    refine Finset.sum_congr rfl fun b _ => ?_
    split
    · rw [measured_old hc.ok hc2.ok h h2, max_stripped h h2]
      rcases q1 v (fill b k) hv with hq | hq
      · refine he _ hq ?_ _
        intro y' hy' q' hq'
        have := hz _ hy' (oldIndex R q') ((hF (oldIndex_kept R q')).1 (by rwa [newIndex_oldIndex]))
        rwa [if_neg (oldIndex_kept R q'), newIndex_oldIndex] at this
      · rw [hq, output_zero, output_zero]
    · rfl
  · intro he v' hv' hz' k'
    classical
    let k : Bits := merge R (fun _ => false) k'
    have hk : k ∘ oldIndex R = k' := merge_old _ _
    have hz : Spec.Wide.Zero F (liftIn R v') := by
      intro y hy q hq
      simp only [liftIn] at hy
      split at hy
      · rename_i hR'
        by_cases hqR : q ∈ R
        · exact hR' q hqR
        · have := hz' _ hy (newIndex R q) ((hF hqR).2 hq)
          rwa [Function.comp_apply, oldIndex_newIndex hqR] at this
      · exact absurd rfl hy
    have main := he (liftIn R v') (q2 v' hv') hz k
    unfold SameProbability at main
    have key : ∀ {c r : Circ WOp}, Runnable c → CircOk r → Stripped acts R c r → ∀ (N : Nat) (M : Nat → Prop), (∀ q ∈ R, q < N) →
        probability N M (Wide.output c (liftIn R v')) k = probability (newIndex R N) (M ∘ oldIndex R) (Wide.output r v') k' := by
      intro c r hc hr h N M hN
      rw [probability_stripped hacts hc hr h, Finset.sum_eq_single (fun _ => false)]
      · have hcond : (∀ q : Fin N, q.val ∉ R → false = false) ∧ (∀ q : Fin N, q.val ∈ R → M q → false = k q) :=
          ⟨fun _ _ => rfl, fun q hq _ => by simp only [k, merge, if_pos hq]⟩
        rw [if_pos hcond, hk]
        have e : restrictIn R (liftIn R v') (fill (fun _ : Fin N => false) k) = v' := by
          funext y'
          simp only [restrictIn, liftIn]
          rw [if_pos]
          · congr 1
            funext q'
            simp only [Function.comp_apply]
            rw [if_neg (oldIndex_kept R q'), newIndex_oldIndex]
          · intro q hq
            rw [if_pos hq]
            unfold fill
            rw [dif_pos (hN q hq)]
        rw [e]
      · intro b _ hb
        by_cases hcond : (∀ q : Fin N, q.val ∉ R → b q = false) ∧ (∀ q : Fin N, q.val ∈ R → M q → b q = k q)
        · rw [if_pos hcond]
          have : ∃ q : Fin N, b q = true := by
            by_contra hn
            apply hb
            funext q
            cases hbq : b q
            · rfl
            · exact absurd ⟨q, hbq⟩ hn
          obtain ⟨q, hq⟩ := this
          have hqR : q.val ∈ R := by
            by_contra hn
            rw [hcond.1 q hn] at hq
            exact absurd hq (by simp)
          have e : restrictIn R (liftIn R v') (fill b k) = fun _ => 0 := by
            funext y'
            simp only [restrictIn, liftIn]
            rw [if_neg]
            intro hall
            have := hall q.val hqR
            rw [if_pos hqR] at this
            unfold fill at this
            rw [dif_pos q.isLt] at this
            rw [show (⟨q.val, q.isLt⟩ : Fin N) = q from rfl, hq] at this
            exact absurd this (by simp)
          rw [e, output_zero, probability_zero]
        · rw [if_neg hcond]
      · intro hn; exact absurd (Finset.mem_univ _) hn
    rw [key hc hr h _ _ hR, key hc2 hr2 h2 _ _ hR, measured_old hc.ok hc2.ok h h2, max_stripped h h2] at main
    exact main

/-! ## Classes of inputs -/

theorem partiallyOn_iff (F : Nat → Prop) (c1 c2 : Circ WOp) : PartiallyOn F c1 c2 ↔ AgreeOn (fun _ => True) F c1 c2 :=
  ⟨fun h v _ hz => h v hz, fun h v hz => h v trivial hz⟩

theorem zero_basisState (F : Nat → Prop) (y : Bits) : Spec.Wide.Zero F (basisState y) ↔ ∀ q, F q → y q = false := by
  unfold Spec.Wide.Zero basisState
  constructor
  · intro h q hq
    exact h y (by simp) q hq
  · intro h x hx q hq
    have : x = y := by
      by_contra hn
      exact hx (if_neg hn)
    rw [this]
    exact h q hq

theorem equalOnBasis_iff (c1 c2 : Circ WOp) : EqualOnBasis c1 c2 ↔ AgreeOn (fun v => ∃ y, v = basisState y) (Fixed c1 c2) c1 c2 := by
  constructor
  · rintro h v ⟨y, rfl⟩ hz
    exact h y ((zero_basisState _ _).1 hz)
  · intro h y hy
    exact h _ ⟨y, rfl⟩ ((zero_basisState _ _).2 hy)

theorem restrictIn_basisState (y X : Bits) : (∃ y', restrictIn R (basisState y) X = basisState y') ∨ restrictIn R (basisState y) X = fun _ => 0 := by
  by_cases h : ∀ q ∈ R, X q = y q
  · refine Or.inl ⟨y ∘ oldIndex R, ?_⟩
    funext z
    simp only [restrictIn, basisState]
    have : ((fun q => if q ∈ R then X q else z (newIndex R q)) = y) ↔ z = y ∘ oldIndex R := by
      constructor
      · intro e
        funext q'
        have := congrFun e (oldIndex R q')
        rw [if_neg (oldIndex_kept R q'), newIndex_oldIndex] at this
        exact this
      · rintro rfl
        funext q
        by_cases hq : q ∈ R
        · rw [if_pos hq, h q hq]
        · rw [if_neg hq, Function.comp_apply, oldIndex_newIndex hq]
    by_cases e : z = y ∘ oldIndex R
    · rw [if_pos (this.2 e), if_pos e]
    · rw [if_neg (fun e' => e (this.1 e')), if_neg e]
  · right
    funext z
    simp only [restrictIn, basisState]
    rw [if_neg]
    intro e
    apply h
    intro q hq
    have := congrFun e q
    rwa [if_pos hq] at this

theorem liftIn_basisState (y' : Bits) : liftIn R (basisState y') = basisState (merge R (fun _ => false) y') := by
  funext z
  simp only [liftIn, basisState]
  by_cases h : ∀ q ∈ R, z q = false
  · rw [if_pos h]
    have : z ∘ oldIndex R = y' ↔ z = merge R (fun _ => false) y' := by
      constructor
      · rintro rfl
        funext q
        unfold merge
        by_cases hq : q ∈ R
        · rw [if_pos hq, h q hq]
        · rw [if_neg hq, Function.comp_apply, oldIndex_newIndex hq]
      · rintro rfl
        exact merge_old _ _
    by_cases e : z ∘ oldIndex R = y'
    · rw [if_pos e, if_pos (this.1 e)]
    · rw [if_neg e, if_neg (fun e' => e (this.2 e'))]
  · rw [if_neg h, if_neg]
    rintro rfl
    apply h
    intro q hq
    unfold merge
    rw [if_pos hq]

/-! ## Setting up ancillary qubits, passes -/

theorem agree_congr {c1 c2 r1 r2 : Circ WOp} (h1 : ∀ v x, Wide.output r1 v x = Wide.output c1 v x) (h2 : ∀ v x, Wide.output r2 v x = Wide.output c2 v x)
    {F F' : Nat → Prop} (hf : ∀ q, F' q ↔ F q) (hm : ∀ q, Measured r1 r2 q ↔ Measured c1 c2 q)
    (hw : max r1.nqubits r2.nqubits = max c1.nqubits c2.nqubits) (Q : (Bits → ℂ) → Prop) : AgreeOn Q F' r1 r2 ↔ AgreeOn Q F c1 c2 := by
  have e1 : Wide.output r1 = Wide.output c1 := funext fun v => funext fun x => h1 v x
  have e2 : Wide.output r2 = Wide.output c2 := funext fun v => funext fun x => h2 v x
  have e3 : F' = F := funext fun q => propext (hf q)
  have e4 : Measured r1 r2 = Measured c1 c2 := funext fun q => propext (hm q)
  unfold AgreeOn SameProbability
  rw [e1, e2, e3, e4, hw]

theorem measured_comm {c1 c2 : Circ WOp} (q : Nat) : Measured c1 c2 q ↔ Measured c2 c1 q := or_comm

/-- Circuits of the same width: the qubits that are not garbage in both. -/
theorem measured_same_width {c1 c2 : Circ WOp} (h : c1.nqubits = c2.nqubits) (q : Nat) :
    Measured c1 c2 q ↔ q < c1.nqubits ∧ (c1.isGarbage q = false ∨ c2.isGarbage q = false) := by
  unfold Measured Reads
  rw [h]
  constructor
  · rintro (⟨a, b, _⟩ | ⟨a, b, _⟩)
    · exact ⟨a, Or.inl b⟩
    · exact ⟨a, Or.inr b⟩
  · rintro ⟨a, b | b⟩
    · exact Or.inl ⟨a, b, fun hn => absurd hn (by omega)⟩
    · exact Or.inr ⟨a, b, fun hn => absurd hn (by omega)⟩

theorem measured_setup {c1 c2 r1 r2 : Circ WOp} (hc2 : CircOk c2) (hle : c1.nqubits ≤ c2.nqubits) (hp : Padded c2.nqubits c1 r1)
    (hs : SurplusMarked c1.nqubits c2 r2) (q : Nat) : Measured r1 r2 q ↔ Measured c1 c2 q := by
  rw [measured_same_width (by rw [hp.width, hs.width]), hp.width]
  have split : ∀ b : Bool, b = false ↔ ¬ b = true := fun b => by cases b <;> simp
  by_cases hq : q < c1.nqubits
  · have e1 := (hp.old q hq).2
    have e2 : r2.isGarbage q = false ↔ c2.isGarbage q = false := by
      rw [split, split, hs.garbage q (by omega)]
      constructor
      · intro h h'; exact h (Or.inl h')
      · rintro h (h' | ⟨h', _⟩)
        · exact h h'
        · omega
    rw [e1, e2]
    unfold Measured Reads
    constructor
    · rintro ⟨a, b | b⟩
      · exact Or.inl ⟨hq, b, fun hn => absurd hn (by omega)⟩
      · exact Or.inr ⟨a, b, fun hn => absurd hn (by omega)⟩
    · rintro (⟨_, b, _⟩ | ⟨_, b, _⟩)
      · exact ⟨by omega, Or.inl b⟩
      · exact ⟨by omega, Or.inr b⟩
  · by_cases hn : q < c2.nqubits
    · have e1 := (hp.new q (by omega) hn).2
      have e2 : r2.isGarbage q = false ↔ c2.isGarbage q = false ∧ Labelled c2 q := by
        rw [split, split, hs.garbage q hn]
        constructor
        · intro h
          refine ⟨fun h' => h (Or.inl h'), ?_⟩
          obtain ⟨p, hp⟩ := (hc2.onto q).2 hn
          by_contra hl
          exact h (Or.inr ⟨by omega, p, hp, fun q' hq' => hl ⟨p, q', hp, hq'⟩⟩)
        · rintro ⟨h, p, q', hp, hq'⟩ (h' | ⟨_, p', hp', hno⟩)
          · exact h h'
          · rw [value_unique hc2.inj hp' hp] at hno
            exact hno q' hq'
      rw [e1, e2]
      unfold Measured Reads
      constructor
      · rintro ⟨a, b | b⟩
        · exact absurd b (by simp)
        · exact Or.inr ⟨a, b.1, fun _ => b.2⟩
      · rintro (⟨a, _⟩ | ⟨a, b, l⟩)
        · omega
        · exact ⟨a, Or.inr ⟨b, l (by omega)⟩⟩
    · unfold Measured Reads
      constructor
      · rintro ⟨a, _⟩; omega
      · rintro (⟨a, _⟩ | ⟨a, _⟩) <;> omega

/-! ## Counted circuits -/

variable {n : Nat} {e : Nat → Fin n} {qc : QC n}

theorem fill_eq_join (y : Basis n) (x : Bits) : fill y x = join y x := rfl

theorem join_join (y y' : Basis n) (x : Bits) : join y' (join y x) = join y' x := by
  funext q
  unfold join
  split <;> rfl

theorem probability_numbered {e : Nat → Fin n} {c : Circ WOp} {qc : QC n} (hc : Wired c) (h : Numbered e c qc) {M : Nat → Prop} {g : List Bool}
    (hg : ∀ q : Fin n, M q.val ↔ g.getD q.val false = false) (v : Bits → ℂ) (k : Bits) :
    probability n M (Wide.output c v) k = prob g (Spec.output qc (finalLabels qc) (fun y => v (join y k))) (low n k) := by
  unfold probability prob
  refine Finset.sum_congr rfl fun y _ => ?_
  rw [fill_eq_join, output_numbered hc h, low_join]
  have e1 : (fun y' => v (join y' (join y k))) = fun y' => v (join y' k) := funext fun y' => by rw [join_join]
  rw [e1]
  have e2 : (∀ q : Fin n, M q.val → y q = k q.val) ↔ ∀ q : Fin n, g.getD q.val false = false → y q = low n k q := by
    simp only [hg]
    rfl
  by_cases hh : ∀ q : Fin n, M q.val → y q = k q.val
  · rw [if_pos hh, if_pos (e2.1 hh)]
  · rw [if_neg hh, if_neg (fun x => hh (e2.2 x))]

open Classical in
/-- A state of `n` qubits as a state of the unlimited register. -/
noncomputable def widen (v : Basis n → ℂ) : Bits → ℂ := fun X => if ∀ q, n ≤ q → X q = false then v (low n X) else 0

theorem widen_join (v : Basis n → ℂ) (k : Basis n) : (fun y => widen v (join y (join k fun _ => false))) = v := by
  funext y
  unfold widen
  rw [if_pos, low_join]
  intro q hq
  unfold join
  rw [dif_neg (by omega), dif_neg (by omega)]

theorem finite_output_zero (qc : QC n) (ω : Equiv.Perm (Fin n)) : Spec.output qc ω (fun _ => 0) = fun _ => 0 := by
  have hx : ∀ ops : List (Op n), execute ops (fun _ => 0) = fun _ => 0 := by
    intro ops
    induction ops with
    | nil => rfl
    | cons o l ih =>
      have : o.phys.mulVec (fun _ => (0 : ℂ)) = fun _ => 0 := by
        funext x
        simp [Matrix.mulVec, dotProduct]
      rw [execute, this, ih]
  unfold Spec.output readOut load
  rw [hx]

variable {e1 e2 : Nat → Fin n} {c1 c2 : Circ WOp} {qc1 qc2 : QC n}

/-- **Measurement probabilities of two circuits and of their counted versions agree on the same inputs.** -/
theorem agree_numbered (hc1 : Wired c1) (hc2 : Wired c2) (h1 : Numbered e1 c1 qc1) (h2 : Numbered e2 c2 qc2) {g anc : List Bool}
    {F : Nat → Prop} (ha : ∀ q, q < n → (anc.getD q false = true ↔ F q)) (hg : ∀ q : Fin n, Measured c1 c2 q.val ↔ g.getD q.val false = false)
    {Q : (Bits → ℂ) → Prop} {Q' : (Basis n → ℂ) → Prop} (q1 : ∀ v k, Q v → Q' (fun y => v (join y k)) ∨ (fun y : Basis n => v (join y k)) = fun _ => 0)
    (q2 : ∀ v, Q' v → Q (widen v)) :
    (∀ v : Basis n → ℂ, Q' v → AncillasZero anc v → ∀ k, prob g (Spec.output qc1 (finalLabels qc1) v) k = prob g (Spec.output qc2 (finalLabels qc2) v) k) ↔
      AgreeOn Q F c1 c2 := by
  have hmax : max c1.nqubits c2.nqubits = n := by rw [h1.width, h2.width, Nat.max_self]
  constructor
  · intro h v hv hz k
    unfold SameProbability
    rw [hmax, probability_numbered hc1 h1 hg, probability_numbered hc2 h2 hg]
    rcases q1 v k hv with hq | hq
    · refine h _ hq ?_ _
      intro y hy q hq
      have := hz _ hy q.val ((ha q.val q.isLt).1 hq)
      unfold join at this
      rwa [dif_pos q.isLt] at this
    · rw [hq, finite_output_zero, finite_output_zero]
  · intro h v hv hz k
    have hz' : Spec.Wide.Zero F (widen v) := by
      intro X hX q hq
      unfold widen at hX
      split at hX
      · rename_i h0
        by_cases hn : q < n
        · exact hz _ hX ⟨q, hn⟩ ((ha q hn).2 hq)
        · exact h0 q (by omega)
      · exact absurd rfl hX
    have := h (widen v) (q2 v hv) hz' (join k fun _ => false)
    unfold SameProbability at this
    rw [hmax, probability_numbered hc1 h1 hg, probability_numbered hc2 h2 hg, widen_join, low_join] at this
    exact this

theorem join_basisState (y k : Bits) : (∃ y', (fun z : Basis n => basisState y (join z k)) = ket y') ∨ (fun z : Basis n => basisState y (join z k)) = fun _ => 0 := by
  by_cases h : ∀ q, n ≤ q → k q = y q
  · refine Or.inl ⟨low n y, ?_⟩
    funext z
    unfold basisState ket
    have : join z k = y ↔ z = low n y := by
      constructor
      · rintro rfl; rw [low_join]
      · rintro rfl
        funext q
        unfold join low
        split
        · rfl
        · exact h q (by omega)
    by_cases e : z = low n y
    · rw [if_pos (this.2 e), if_pos e]
    · rw [if_neg (fun e' => e (this.1 e')), if_neg e]
  · right
    funext z
    unfold basisState
    rw [if_neg]
    rintro rfl
    apply h
    intro q hq
    unfold join
    rw [dif_neg (by omega)]

theorem widen_ket (y : Basis n) : widen (ket y) = basisState (join y fun _ => false) := by
  funext X
  unfold widen ket basisState
  by_cases h : ∀ q, n ≤ q → X q = false
  · rw [if_pos h]
    have : low n X = y ↔ X = join y fun _ => false := by
      constructor
      · rintro rfl
        funext q
        unfold join low
        split
        · rfl
        · exact h q (by omega)
      · rintro rfl; rw [low_join]
    by_cases e : low n X = y
    · rw [if_pos e, if_pos (this.1 e)]
    · rw [if_neg e, if_neg (fun e' => e (this.2 e'))]
  · rw [if_neg h, if_neg]
    rintro rfl
    apply h
    intro q hq
    unfold join
    rw [dif_neg (by omega)]

/-- Equal outcome probabilities, with or without reporting garbage qubits as 0. -/
theorem reported_iff (g : List Bool) (v w : Basis n → ℂ) : (∀ k, reported g v k = reported g w k) ↔ ∀ k, prob g v k = prob g w k := by
  constructor
  · intro h k
    let k' : Basis n := fun q => if g.getD q.val false = true then false else k q
    have hk : ∀ u : Basis n → ℂ, prob g u k = prob g u k' := by
      intro u
      unfold prob
      refine Finset.sum_congr rfl fun x _ => ?_
      have : (∀ q : Fin n, g.getD q.val false = false → x q = k q) ↔ ∀ q : Fin n, g.getD q.val false = false → x q = k' q := by
        refine forall₂_congr fun q hq => ?_
        simp only [k']
        rw [if_neg (by rw [hq]; simp)]
      by_cases hh : ∀ q : Fin n, g.getD q.val false = false → x q = k q
      · rw [if_pos hh, if_pos (this.1 hh)]
      · rw [if_neg hh, if_neg (fun x => hh (this.2 x))]
    have := h k'
    have hz : ∀ q : Fin n, g.getD q.val false = true → k' q = false := fun q hq => by simp only [k']; rw [if_pos hq]
    unfold reported at this
    rw [if_pos hz, if_pos hz] at this
    rw [hk v, hk w, this]
  · intro h k
    unfold reported
    rw [h k]

end QCEC.Wide
