import Verif.Model.Sem
import Verif.Lemmas.DDFlow
import Mathlib.LinearAlgebra.Matrix.NonsingularInverse
import Mathlib.Algebra.BigOperators.Fin
/-!
# Helper lemmas about the exact semantics
-/
namespace QCEC.Sem
open QCEC QCEC.DD Matrix

variable {n : Nat}

/-- Relabelling of basis states by a permutation, as an equivalence. -/
def pre (σ : Equiv.Perm (Fin n)) : Basis n ≃ Basis n where
  toFun x := x ∘ σ
  invFun x := x ∘ σ.symm
  left_inv x := by funext q; simp
  right_inv x := by funext q; simp

/-- An operator on physical qubits seen from logical qubits, with output labelling `σ` and input labelling `τ`
(both map physical to logical qubits). -/
def view (σ τ : Equiv.Perm (Fin n)) (A : Mat n) : Mat n := fun x y => A (x ∘ σ) (y ∘ τ)

theorem view_eq (σ τ : Equiv.Perm (Fin n)) (A : Mat n) : view σ τ A = A.submatrix (pre σ) (pre τ) := rfl

theorem view_mul (σ μ τ : Equiv.Perm (Fin n)) (A B : Mat n) : view σ μ A * view μ τ B = view σ τ (A * B) := by
  simp only [view_eq]
  exact Matrix.submatrix_mul_equiv A B (pre σ) (pre μ) (pre τ)

theorem comp_inj (σ : Equiv.Perm (Fin n)) (x y : Basis n) : x ∘ σ = y ∘ σ ↔ x = y :=
  ⟨fun h => (pre σ).injective h, fun h => by rw [h]⟩

theorem view_one (σ : Equiv.Perm (Fin n)) : view σ σ (1 : Mat n) = 1 := by
  funext x y
  simp only [view, Matrix.one_apply, comp_inj]

theorem view_ct (σ τ : Equiv.Perm (Fin n)) (A : Mat n) : (view σ τ A)ᴴ = view τ σ Aᴴ := rfl

theorem view_smul (σ τ : Equiv.Perm (Fin n)) (c : ℂ) (A : Mat n) : view σ τ (c • A) = c • view σ τ A := rfl

theorem view_inj (σ τ : Equiv.Perm (Fin n)) (A B : Mat n) (h : view σ τ A = view σ τ B) : A = B := by
  funext x y
  have := congrFun (congrFun h (x ∘ σ.symm)) (y ∘ τ.symm)
  simp only [view] at this
  have hx : (x ∘ σ.symm) ∘ σ = x := by funext q; simp
  have hy : (y ∘ τ.symm) ∘ τ = y := by funext q; simp
  rwa [hx, hy] at this

theorem swap_view (σ : Equiv.Perm (Fin n)) (a b : Fin n) : view (Equiv.swap a b * σ) σ (1 : Mat n) = swapMat a b := by
  funext x y
  have h : (x ∘ (Equiv.swap a b * σ) = y ∘ σ) ↔ (x = y ∘ Equiv.swap a b) := by
    rw [show x ∘ ⇑(Equiv.swap a b * σ) = (x ∘ Equiv.swap a b) ∘ σ from rfl, comp_inj]
    constructor
    · intro h; rw [← h]; funext q; simp
    · intro h; rw [h]; funext q; simp
  simp only [view, swapMat, Matrix.one_apply, h]

theorem swap_tracked (σ : Equiv.Perm (Fin n)) (a b : Fin n) : view (σ * Equiv.swap a b) σ (swapMat a b) = 1 := by
  funext x y
  have h : (x ∘ (σ * Equiv.swap a b) = (y ∘ σ) ∘ Equiv.swap a b) ↔ (x = y) := by
    rw [show x ∘ ⇑(σ * Equiv.swap a b) = (x ∘ σ) ∘ Equiv.swap a b from rfl, comp_inj, comp_inj]
  simp only [view, swapMat, Matrix.one_apply, h]

theorem gate_map (σ : Equiv.Perm (Fin n)) (g : Gate n) : (g.map σ).mat = view σ σ g.mat := by
  funext x y
  have h1 : (∀ c ∈ (g.map σ).controls, y c.1 = c.2) ↔ (∀ c ∈ g.controls, (y ∘ σ) c.1 = c.2) := by
    unfold Gate.map
    simp only [List.forall_mem_map, Function.comp_apply]
  have h2 : (∀ q, (∀ i, (g.map σ).targets i ≠ q) → x q = y q) ↔
      (∀ q, (∀ i, g.targets i ≠ q) → (x ∘ σ) q = (y ∘ σ) q) := by
    constructor
    · intro h q hq
      exact h (σ q) (fun i hi => hq i (σ.injective hi))
    · intro h q hq
      have := h (σ.symm q) (fun i hi => hq i (by simp [Gate.map, hi]))
      simpa using this
  have h3 : ∀ z : Basis n, z ∘ (g.map σ).targets = (z ∘ σ) ∘ g.targets := fun _ => rfl
  have h4 := comp_inj σ x y
  unfold view Gate.mat
  simp only [h1, h2, h3, h4]
  rfl

theorem SOp.getDD_view (s : SOp n) (σ : Equiv.Perm (Fin n)) : (s.getDD σ).1 = view (s.getDD σ).2 σ s.phys := by
  cases s with
  | gate g => exact gate_map σ g
  | swap a b => exact (swap_tracked σ a b).symm
  | barrier => exact (view_one σ).symm

theorem SOp.getInv_eq (s : SOp n) (σ : Equiv.Perm (Fin n)) :
    (s.getInv σ).1 = (s.getDD σ).1ᴴ ∧ (s.getInv σ).2 = (s.getDD σ).2 := by
  cases s with
  | gate g => exact ⟨rfl, rfl⟩
  | swap a b => exact ⟨by simp [SOp.getInv, SOp.getDD], rfl⟩
  | barrier => exact ⟨by simp [SOp.getInv, SOp.getDD], rfl⟩

theorem getDDList_view (l : List (SOp n)) (A : Mat n) (ι σ : Equiv.Perm (Fin n)) :
    (getDDList l (view σ ι A) σ).1 = view (getDDList l (view σ ι A) σ).2 ι (physList l * A) := by
  induction l generalizing A σ with
  | nil => simp [getDDList, physList]
  | cons s r ih =>
    unfold getDDList
    rw [SOp.getDD_view, view_mul, ih, physList, Matrix.mul_assoc]

theorem getDDList_perm (l : List (SOp n)) (A B : Mat n) (σ : Equiv.Perm (Fin n)) :
    (getDDList l A σ).2 = (getDDList l B σ).2 := by
  induction l generalizing A B σ with
  | nil => rfl
  | cons s r ih => exact ih _ _ _

theorem getInvList_eq (l : List (SOp n)) (A : Mat n) (σ : Equiv.Perm (Fin n)) :
    (getInvList l Aᴴ σ).1 = (getDDList l A σ).1ᴴ ∧ (getInvList l Aᴴ σ).2 = (getDDList l A σ).2 := by
  induction l generalizing A σ with
  | nil => exact ⟨rfl, rfl⟩
  | cons s r ih =>
    unfold getInvList getDDList
    rw [(s.getInv_eq σ).1, (s.getInv_eq σ).2, ← Matrix.conjTranspose_mul]
    exact ih _ _

theorem Op.getDD_view (o : Op n) (σ : Equiv.Perm (Fin n)) : (o.getDD σ).1 = view (o.getDD σ).2 σ o.phys := by
  cases o with
  | simple s => exact s.getDD_view σ
  | compound l =>
    have := getDDList_view l 1 σ σ
    rw [view_one, Matrix.mul_one] at this
    exact this

theorem Op.getInv_eq (o : Op n) (σ : Equiv.Perm (Fin n)) :
    (o.getInv σ).1 = (o.getDD σ).1ᴴ ∧ (o.getInv σ).2 = (o.getDD σ).2 := by
  cases o with
  | simple s => exact s.getInv_eq σ
  | compound l =>
    have := getInvList_eq l (1 : Mat n) σ
    rw [Matrix.conjTranspose_one] at this
    exact this

/-! ## Unitarity -/

/-- A well-formed gate: distinct targets, controls outside the targets, unitary matrix. -/
structure Gate.Valid (g : Gate n) : Prop where
  inj : Function.Injective g.targets
  disj : ∀ c ∈ g.controls, ∀ i, g.targets i ≠ c.1
  unitary : g.u * g.uᴴ = 1

def SOp.Valid : SOp n → Prop
  | .gate g => g.Valid
  | _ => True

def Op.Valid : Op n → Prop
  | .simple s => s.Valid
  | .compound l => ∀ s ∈ l, s.Valid

/-- Overwrite the target bits. -/
noncomputable def Gate.ext (g : Gate n) (x : Basis n) (w : Fin g.k → Bool) : Basis n := fun q =>
  open Classical in if h : ∃ i, g.targets i = q then w h.choose else x q

theorem Gate.ext_target (g : Gate n) (hg : g.Valid) (x : Basis n) (w : Fin g.k → Bool) : g.ext x w ∘ g.targets = w := by
  funext i
  simp only [Function.comp_apply, Gate.ext]
  have h : ∃ j, g.targets j = g.targets i := ⟨i, rfl⟩
  rw [dif_pos h]
  exact congrArg w (hg.inj h.choose_spec)

theorem Gate.ext_other (g : Gate n) (x : Basis n) (w : Fin g.k → Bool) (q : Fin n) (hq : ∀ i, g.targets i ≠ q) :
    g.ext x w q = x q := by
  unfold Gate.ext
  rw [dif_neg]
  rintro ⟨i, hi⟩
  exact hq i hi

theorem Gate.mat_unitary (g : Gate n) (hg : g.Valid) : g.mat * g.matᴴ = 1 := by
  classical
  funext x z
  rw [Matrix.mul_apply]
  simp only [Matrix.conjTranspose_apply]
  -- the controls are satisfied in `a` iff in `c`, if both agree outside the targets
  have hctrl : ∀ a c : Basis n, (∀ q, (∀ i, g.targets i ≠ q) → a q = c q) →
      ((∀ t ∈ g.controls, a t.1 = t.2) ↔ (∀ t ∈ g.controls, c t.1 = t.2)) := by
    intro a c h
    constructor
    · intro h' t ht; rw [← h t.1 (hg.disj t ht)]; exact h' t ht
    · intro h' t ht; rw [h t.1 (hg.disj t ht)]; exact h' t ht
  have hoff : ∀ a c : Basis n, ¬ (∀ t ∈ g.controls, a t.1 = t.2) → g.mat a c = if a = c then 1 else 0 := by
    intro a c ha
    unfold Gate.mat
    by_cases hc : ∀ t ∈ g.controls, c t.1 = t.2
    · rw [if_pos hc]
      have hne : ¬ (∀ q, (∀ i, g.targets i ≠ q) → a q = c q) := fun h => ha ((hctrl a c h).mpr hc)
      rw [if_neg hne, if_neg (fun e : a = c => ha (by rw [e]; exact hc))]
    · rw [if_neg hc]
  by_cases hx : ∀ t ∈ g.controls, x t.1 = t.2
  · -- controls satisfied
    have hsum : ∑ y, g.mat x y * star (g.mat z y) = ∑ w, g.mat x (g.ext x w) * star (g.mat z (g.ext x w)) := by
      symm
      refine Fintype.sum_of_injective (g.ext x) ?_ _ _ ?_ (fun _ => rfl)
      · intro w w' h
        rw [← g.ext_target hg x w, h, g.ext_target hg x w']
      · intro y hy
        have : g.mat x y = 0 := by
          unfold Gate.mat
          have hne : ¬ (∀ q, (∀ i, g.targets i ≠ q) → x q = y q) := by
            intro h
            apply hy
            refine ⟨y ∘ g.targets, ?_⟩
            funext q
            by_cases hq : ∃ i, g.targets i = q
            · obtain ⟨i, rfl⟩ := hq
              exact congrFun (g.ext_target hg x (y ∘ g.targets)) i
            · have hq' : ∀ i, g.targets i ≠ q := fun i hi => hq ⟨i, hi⟩
              rw [g.ext_other x _ q hq', h q hq']
          by_cases hc : ∀ t ∈ g.controls, y t.1 = t.2
          · rw [if_pos hc, if_neg hne]
          · rw [if_neg hc, if_neg (fun e => hne (fun q _ => by rw [e]))]
        rw [this, zero_mul]
    rw [hsum]
    have hext : ∀ w, ∀ q, (∀ i, g.targets i ≠ q) → x q = g.ext x w q := fun w q hq => (g.ext_other x w q hq).symm
    have hcx : ∀ w, ∀ t ∈ g.controls, g.ext x w t.1 = t.2 := fun w => (hctrl x _ (hext w)).mp hx
    have hmx : ∀ w, g.mat x (g.ext x w) = g.u (x ∘ g.targets) w := by
      intro w
      unfold Gate.mat
      rw [if_pos (hcx w), if_pos (hext w), g.ext_target hg]
    by_cases hz : ∀ q, (∀ i, g.targets i ≠ q) → z q = x q
    · have hmz : ∀ w, g.mat z (g.ext x w) = g.u (z ∘ g.targets) w := by
        intro w
        unfold Gate.mat
        rw [if_pos (hcx w), if_pos (fun q hq => by rw [hz q hq, g.ext_other x w q hq]), g.ext_target hg]
      simp only [hmx, hmz]
      have := congrFun (congrFun hg.unitary (x ∘ g.targets)) (z ∘ g.targets)
      rw [Matrix.mul_apply] at this
      simp only [Matrix.conjTranspose_apply] at this
      rw [this, Matrix.one_apply, Matrix.one_apply]
      have hiff : x ∘ g.targets = z ∘ g.targets ↔ x = z := by
        constructor
        · intro h
          funext q
          by_cases hq : ∃ i, g.targets i = q
          · obtain ⟨i, rfl⟩ := hq
            exact congrFun h i
          · exact (hz q (fun i hi => hq ⟨i, hi⟩)).symm
        · intro h; rw [h]
      simp only [hiff]
    · have hmz : ∀ w, g.mat z (g.ext x w) = 0 := by
        intro w
        unfold Gate.mat
        rw [if_pos (hcx w), if_neg]
        intro h
        exact hz (fun q hq => by rw [h q hq, g.ext_other x w q hq])
      simp only [hmz, star_zero, mul_zero, Finset.sum_const_zero]
      rw [Matrix.one_apply, if_neg]
      intro h
      exact hz (fun q _ => by rw [h])
  · have h1 : ∀ y, g.mat x y = if x = y then 1 else 0 := fun y => hoff x y hx
    simp only [h1, ite_mul, one_mul, zero_mul, Finset.sum_ite_eq, Finset.mem_univ, if_true]
    rw [Matrix.one_apply]
    by_cases hz : ∀ t ∈ g.controls, z t.1 = t.2
    · have hxz : x ≠ z := fun e => hx (e ▸ hz)
      have : g.mat z x = 0 := by
        unfold Gate.mat
        rw [if_neg hx, if_neg (Ne.symm hxz)]
      rw [this, star_zero, if_neg hxz]
    · rw [hoff z x hz]
      by_cases e : x = z
      · simp [e]
      · rw [if_neg (Ne.symm e), if_neg e, star_zero]

theorem swapMat_unitary (a b : Fin n) : (swapMat a b : Mat n) * (swapMat a b)ᴴ = 1 := by
  rw [← swap_view 1 a b, view_ct, view_mul, Matrix.conjTranspose_one, Matrix.mul_one, view_one]

theorem SOp.phys_unitary (s : SOp n) (h : s.Valid) : s.phys * s.physᴴ = 1 := by
  cases s with
  | gate g => exact g.mat_unitary h
  | swap a b => exact swapMat_unitary a b
  | barrier => simp [SOp.phys]

theorem mul_unitary (A B : Mat n) (hA : A * Aᴴ = 1) (hB : B * Bᴴ = 1) : (A * B) * (A * B)ᴴ = 1 := by
  rw [Matrix.conjTranspose_mul, Matrix.mul_assoc, ← Matrix.mul_assoc B, hB, Matrix.one_mul, hA]

theorem physList_unitary (l : List (SOp n)) (h : ∀ s ∈ l, s.Valid) : physList l * (physList l)ᴴ = 1 := by
  induction l with
  | nil => simp [physList]
  | cons s r ih =>
    exact mul_unitary _ _ (ih fun t ht => h t (List.mem_cons_of_mem _ ht)) (s.phys_unitary (h s List.mem_cons_self))

theorem Op.phys_unitary (o : Op n) (h : o.Valid) : o.phys * o.physᴴ = 1 := by
  cases o with
  | simple s => exact s.phys_unitary h
  | compound l => exact physList_unitary l h

theorem physOps_unitary (l : List (Op n)) (h : ∀ o ∈ l, o.Valid) : physOps l * (physOps l)ᴴ = 1 := by
  induction l with
  | nil => simp [physOps]
  | cons s r ih =>
    exact mul_unitary _ _ (ih fun t ht => h t (List.mem_cons_of_mem _ ht)) (s.phys_unitary (h s List.mem_cons_self))

/-! ## `changePermutation` -/

/-- `σ` maps every listed physical qubit to the listed logical qubit. -/
def Extends (σ : Equiv.Perm (Fin n)) (tgt : List (Fin n × Fin n)) : Prop := ∀ t ∈ tgt, σ t.1 = t.2

/-- The final tracked permutation does not depend on the object. -/
def permAfter (σ : Equiv.Perm (Fin n)) : List (Fin n × Fin n) → Equiv.Perm (Fin n)
  | [] => σ
  | t :: r => permAfter (if σ t.1 = t.2 then σ else Equiv.swap (σ t.1) t.2 * σ) r

theorem changePerm_left (d : Mat n) (σ : Equiv.Perm (Fin n)) (tgt : List (Fin n × Fin n)) :
    changePerm (fun a b d => swapMat a b * d) d σ tgt = (view (permAfter σ tgt) σ 1 * d, permAfter σ tgt) := by
  unfold changePerm
  induction tgt generalizing σ d with
  | nil => simp [permAfter, view_one]
  | cons t r ih =>
    rw [List.foldl_cons]
    unfold permAfter
    by_cases h : σ t.1 = t.2
    · rw [if_pos h, ← ih]; congr 1; unfold changePermStep; rw [if_pos h]
    · have hstep : changePermStep (fun a b d => swapMat a b * d) (d, σ) t = (swapMat (σ t.1) t.2 * d, Equiv.swap (σ t.1) t.2 * σ) := by
        unfold changePermStep; simp only [if_neg h]
      rw [if_neg h, hstep]
      rw [ih, ← swap_view σ, ← Matrix.mul_assoc, view_mul, Matrix.one_mul]

theorem changePerm_vec (d : Basis n → ℂ) (σ : Equiv.Perm (Fin n)) (tgt : List (Fin n × Fin n)) :
    changePerm (fun a b d => (swapMat a b).mulVec d) d σ tgt =
      ((view (permAfter σ tgt) σ 1).mulVec d, permAfter σ tgt) := by
  unfold changePerm
  induction tgt generalizing σ d with
  | nil => simp [permAfter, view_one]
  | cons t r ih =>
    rw [List.foldl_cons]
    unfold permAfter
    by_cases h : σ t.1 = t.2
    · rw [if_pos h, ← ih]; congr 1; unfold changePermStep; rw [if_pos h]
    · have hstep : changePermStep (fun a b d => (swapMat a b).mulVec d) (d, σ) t = ((swapMat (σ t.1) t.2).mulVec d, Equiv.swap (σ t.1) t.2 * σ) := by
        unfold changePermStep; simp only [if_neg h]
      rw [if_neg h, hstep]
      rw [ih, ← swap_view σ, Matrix.mulVec_mulVec, view_mul, Matrix.one_mul]

theorem changePerm_right (d : Mat n) (σ : Equiv.Perm (Fin n)) (tgt : List (Fin n × Fin n)) :
    changePerm (fun a b d => d * swapMat a b) d σ tgt = (d * view σ (permAfter σ tgt) 1, permAfter σ tgt) := by
  unfold changePerm
  induction tgt generalizing σ d with
  | nil => simp [permAfter, view_one]
  | cons t r ih =>
    rw [List.foldl_cons]
    unfold permAfter
    by_cases h : σ t.1 = t.2
    · rw [if_pos h, ← ih]; congr 1; unfold changePermStep; rw [if_pos h]
    · have hstep : changePermStep (fun a b d => d * swapMat a b) (d, σ) t = (d * swapMat (σ t.1) t.2, Equiv.swap (σ t.1) t.2 * σ) := by
        unfold changePermStep; simp only [if_neg h]
      rw [if_neg h, hstep]
      have hs : (swapMat (σ t.1) t.2 : Mat n) = view σ (Equiv.swap (σ t.1) t.2 * σ) 1 := by
        rw [← swap_view (Equiv.swap (σ t.1) t.2 * σ), ← mul_assoc, Equiv.swap_mul_self, one_mul]
      rw [ih, hs, Matrix.mul_assoc, view_mul, Matrix.mul_one]

theorem permAfter_keeps (σ : Equiv.Perm (Fin n)) (tgt : List (Fin n × Fin n)) (i g : Fin n) (h : σ i = g)
    (h1 : ∀ t ∈ tgt, t.1 ≠ i) (h2 : ∀ t ∈ tgt, t.2 ≠ g) : permAfter σ tgt i = g := by
  induction tgt generalizing σ with
  | nil => exact h
  | cons t r ih =>
    unfold permAfter
    apply ih
    · split
      · exact h
      · simp only [Equiv.Perm.coe_mul, Function.comp_apply, h]
        apply Equiv.swap_apply_of_ne_of_ne
        · rw [← h]; intro e; exact h1 t List.mem_cons_self (σ.injective e).symm
        · exact (h2 t List.mem_cons_self).symm
    · exact fun t ht => h1 t (List.mem_cons_of_mem _ ht)
    · exact fun t ht => h2 t (List.mem_cons_of_mem _ ht)

/-- A target permutation: distinct keys and distinct values. -/
structure OutValid (tgt : List (Fin n × Fin n)) : Prop where
  keys : (tgt.map Prod.fst).Nodup
  vals : (tgt.map Prod.snd).Nodup

theorem permAfter_extends (σ : Equiv.Perm (Fin n)) (tgt : List (Fin n × Fin n)) (h : OutValid tgt) :
    Extends (permAfter σ tgt) tgt := by
  induction tgt generalizing σ with
  | nil => intro t ht; simp at ht
  | cons t r ih =>
    have hk := List.nodup_cons.mp h.keys
    have hv := List.nodup_cons.mp h.vals
    intro u hu
    rcases List.mem_cons.mp hu with rfl | hu
    · unfold permAfter
      apply permAfter_keeps
      · split
        · assumption
        · simp
      · intro t' ht' e; exact hk.1 (List.mem_map.mpr ⟨t', ht', e⟩)
      · intro t' ht' e; exact hv.1 (List.mem_map.mpr ⟨t', ht', e⟩)
    · unfold permAfter
      exact ih _ ⟨hk.2, hv.2⟩ u hu

/-! ## What the fold over all operations computes -/

/-- Tracked permutation after all operations. -/
noncomputable def trackAll : List (Op n) → Equiv.Perm (Fin n) → Equiv.Perm (Fin n)
  | [], σ => σ
  | o :: r, σ => trackAll r (o.getDD σ).2

theorem applyAll_left (garb) (l : List (Op n)) (d : Mat n) (σ : Equiv.Perm (Fin n)) :
    applyAll (exactMatrix n garb) .left l σ d = (trackAll l σ, view (trackAll l σ) σ (physOps l) * d) := by
  induction l generalizing d σ with
  | nil => simp [applyAll, physOps, trackAll, view_one]
  | cons o r ih =>
    unfold applyAll
    rw [ih]
    simp only [Backend.applyOp, exactMatrix, trackAll, physOps]
    rw [o.getDD_view, ← Matrix.mul_assoc, view_mul]

theorem applyAll_vec (garb) (l : List (Op n)) (d : Basis n → ℂ) (σ : Equiv.Perm (Fin n)) :
    applyAll (exactVector n garb) .left l σ d = (trackAll l σ, (view (trackAll l σ) σ (physOps l)).mulVec d) := by
  induction l generalizing d σ with
  | nil => simp [applyAll, physOps, trackAll, view_one]
  | cons o r ih =>
    unfold applyAll
    rw [ih]
    simp only [Backend.applyOp, exactVector, trackAll, physOps]
    rw [o.getDD_view, Matrix.mulVec_mulVec, view_mul]

/-- Every physical qubit has an output label. -/
def Total (tgt : List (Fin n × Fin n)) : Prop := ∀ q, ∃ t ∈ tgt, t.1 = q

theorem extends_unique (σ τ : Equiv.Perm (Fin n)) (tgt : List (Fin n × Fin n)) (ht : Total tgt) (h1 : Extends σ tgt)
    (h2 : Extends τ tgt) : σ = τ := by
  ext q
  obtain ⟨t, ht, rfl⟩ := ht q
  rw [h1 t ht, h2 t ht]

theorem ancProj_sq (anc : List Bool) : (ancProj anc : Mat n) * ancProj anc = ancProj anc := by
  unfold ancProj
  rw [Matrix.diagonal_mul_diagonal]
  congr 1
  funext x
  split <;> simp

theorem ancProj_ct (anc : List Bool) : (ancProj anc : Mat n)ᴴ = ancProj anc := by
  unfold ancProj
  rw [Matrix.diagonal_conjTranspose]
  congr 1
  funext x
  simp only [Pi.star_apply]
  split <;> simp

theorem ancProj_nil : (ancProj [] : Mat n) = 1 := by
  unfold ancProj
  rw [← Matrix.diagonal_one]
  congr 1
  funext x
  simp

theorem finalObject_exact (garb) (qc : QC n) (init : Mat n) :
    finalObject (exactMatrix n garb) false qc init =
      view (permAfter (trackAll qc.ops qc.initialLayout) qc.outputPermutation) qc.initialLayout (physOps qc.ops) *
        init * ancProj qc.ancillary := by
  unfold finalObject
  rw [applyAll_left]
  have : ∀ d σ tgt, (exactMatrix n garb).changePerm true d σ tgt = changePerm (fun a b d => swapMat a b * d) d σ tgt :=
    fun _ _ _ => rfl
  simp only [this, changePerm_left]
  simp only [exactMatrix, reduceAncillae, if_true, Bool.false_eq_true, if_false]
  rw [← Matrix.mul_assoc (view _ _ 1), view_mul, Matrix.one_mul]

theorem finalObject_vec (garb) (qc : QC n) (init : Basis n → ℂ) :
    finalObject (exactVector n garb) false qc init =
      (view (permAfter (trackAll qc.ops qc.initialLayout) qc.outputPermutation) qc.initialLayout
        (physOps qc.ops)).mulVec init := by
  unfold finalObject
  rw [applyAll_vec]
  have : ∀ d σ tgt, (exactVector n garb).changePerm true d σ tgt =
    changePerm (fun a b d => (swapMat a b).mulVec d) d σ tgt := fun _ _ _ => rfl
  simp only [this, changePerm_vec]
  simp only [exactVector, Bool.false_eq_true, if_false]
  rw [Matrix.mulVec_mulVec, view_mul, Matrix.one_mul]

/-! ## The alternating invariant -/

/-- The object at a point of the alternating check, seen on physical qubits, completed by the remaining operations of both
circuits, is the fixed operator `T`; `P` is what must hold of the two tracked permutations and remaining operations. -/
def AltSem (T : Mat n) (P : List (Op n) → Equiv.Perm (Fin n) → List (Op n) → Equiv.Perm (Fin n) → Prop)
    (r1 : List (Op n)) (σ1 : Equiv.Perm (Fin n)) (r2 : List (Op n)) (σ2 : Equiv.Perm (Fin n)) (d : Mat n) : Prop :=
  (∃ W, d = view σ1 σ2 W ∧ physOps r1 * W * (physOps r2)ᴴ = T) ∧ P r1 σ1 r2 σ2

/-- Two operations that do the same to the logical qubits cancel around a multiple of the identity. -/
theorem skip_ok {σ1 σ2 : Equiv.Perm (Fin n)} {W : Mat n} {c : ℂ} (hW : view σ1 σ2 W = c • (1 : Mat n)) {a b : Op n} (hv : a.Valid)
    (hl : view σ1 σ1 a.phys = view σ2 σ2 b.phys) : a.phys * W * b.physᴴ = W := by
  apply view_inj σ1 σ2
  rw [← view_mul σ1 σ2 σ2, ← view_mul σ1 σ1 σ2, hW, ← view_ct, ← hl, view_ct]
  rw [Matrix.mul_smul, Matrix.mul_one, Matrix.smul_mul, view_mul, a.phys_unitary hv, view_one]

theorem altSem_inv (garb) (T : Mat n) (P) (isId : Mat n → Bool) (opEq : Op n → Op n → Bool)
    (hL : ∀ o r1 σ1 r2 σ2, P (o :: r1) σ1 r2 σ2 → P r1 (o.getDD σ1).2 r2 σ2)
    (hR : ∀ o r1 σ1 r2 σ2, P r1 σ1 (o :: r2) σ2 → P r1 σ1 r2 (o.getDD σ2).2)
    (hskip : ∀ a b r1 σ1 r2 σ2, opEq a b = true → a.isSwap = false → b.isSwap = false → P (a :: r1) σ1 (b :: r2) σ2 →
      (∃ (W : Mat n) (c : ℂ), view σ1 σ2 W = c • (1 : Mat n) ∧ physOps (a :: r1) * W * (physOps (b :: r2))ᴴ = T) →
      a.Valid ∧ view σ1 σ1 a.phys = view σ2 σ2 b.phys ∧ P r1 σ1 r2 σ2)
    (hid : ∀ d, isId d = true → ∃ c : ℂ, d = c • (1 : Mat n)) :
    AltInv (exactMatrix n garb) isId opEq (AltSem T P) where
  left := by
    rintro o r1 σ1 r2 σ2 d ⟨⟨W, rfl, hW⟩, hP⟩
    refine ⟨⟨o.phys * W, ?_, ?_⟩, hL _ _ _ _ _ hP⟩
    · simp only [Backend.applyOp, exactMatrix]
      rw [o.getDD_view, view_mul]
    · rw [← hW, physOps]; simp only [Matrix.mul_assoc]
  right := by
    rintro o r1 σ1 r2 σ2 d ⟨⟨W, rfl, hW⟩, hP⟩
    refine ⟨⟨W * o.physᴴ, ?_, ?_⟩, ?_⟩
    · simp only [Backend.applyOp, exactMatrix]
      rw [(o.getInv_eq σ2).1, (o.getInv_eq σ2).2, o.getDD_view, view_ct, view_mul]
    · rw [← hW, physOps, Matrix.conjTranspose_mul]; simp only [Matrix.mul_assoc]
    · have := hR _ _ _ _ _ hP
      simp only [Backend.applyOp, exactMatrix]
      rw [(o.getInv_eq σ2).2]
      exact this
  skip := by
    rintro a b r1 σ1 r2 σ2 d hd he sa sb ⟨⟨W, rfl, hW⟩, hP⟩
    obtain ⟨c, hc⟩ := hid _ hd
    obtain ⟨hv, hl, hP'⟩ := hskip _ _ _ _ _ _ he sa sb hP ⟨W, c, hc, hW⟩
    refine ⟨⟨W, rfl, ?_⟩, hP'⟩
    rw [← hW, physOps, physOps, Matrix.conjTranspose_mul]
    have := skip_ok hc hv hl
    calc physOps r1 * W * (physOps r2)ᴴ = physOps r1 * (a.phys * W * b.physᴴ) * (physOps r2)ᴴ := by rw [this]
      _ = _ := by simp only [Matrix.mul_assoc]

end QCEC.Sem
