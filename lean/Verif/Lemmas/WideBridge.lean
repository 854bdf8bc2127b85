import Verif.Lemmas.WideSetup
/-!
# Lemmas: circuits on the unlimited register and circuits on `n` qubits
-/
namespace QCEC.Wide
open QCEC QCEC.Prep QCEC.Spec QCEC.Spec.Wide QCEC.Sem Matrix

variable {n : Nat} {e : Nat → Fin n} {K : Nat → Prop} {f : Basis n}

/-- Both basis states agree, wire by wire; wires that are not counted have the values `f`. -/
def On (K : Nat → Prop) (e : Nat → Fin n) (f : Basis n) (Z : Bits) (z : Basis n) : Prop :=
  (∀ p, K p → Z p = z (e p)) ∧ ∀ i, (∀ p, K p → e p ≠ i) → z i = f i

/-- The states have the same amplitudes. -/
def Alike (K : Nat → Prop) (e : Nat → Fin n) (f : Basis n) (W : Bits → ℂ) (w : Basis n → ℂ) : Prop := ∀ Z z, On K e f Z z → W Z = w z

/-- Application of a gate, amplitude by amplitude. -/
theorem gate_mulVec {g : Gate n} (hg : g.Valid) (w : Basis n → ℂ) (x : Basis n) :
    g.mat.mulVec w x = if ∀ c ∈ g.controls, x c.1 = c.2 then ∑ y, g.u (x ∘ g.targets) y * w (g.ext x y) else w x := by
  have hctrl : ∀ a c : Basis n, (∀ q, (∀ i, g.targets i ≠ q) → a q = c q) →
      ((∀ t ∈ g.controls, a t.1 = t.2) ↔ (∀ t ∈ g.controls, c t.1 = t.2)) := by
    intro a c h
    constructor
    · intro h' t ht; rw [← h t.1 (hg.disj t ht)]; exact h' t ht
    · intro h' t ht; rw [h t.1 (hg.disj t ht)]; exact h' t ht
  unfold Matrix.mulVec dotProduct
  show ∑ y, g.mat x y * w y = _
  by_cases hx : ∀ t ∈ g.controls, x t.1 = t.2
  · rw [if_pos hx]
    symm
    refine Fintype.sum_of_injective (g.ext x) ?_ _ _ ?_ ?_
    · intro a b h
      rw [← g.ext_target hg x a, h, g.ext_target hg x b]
    · intro y hy
      have hne : ¬ (∀ q, (∀ i, g.targets i ≠ q) → x q = y q) := by
        intro h
        apply hy
        refine ⟨y ∘ g.targets, ?_⟩
        funext q
        by_cases hq : ∃ i, g.targets i = q
        · obtain ⟨i, rfl⟩ := hq
          exact congrFun (g.ext_target hg x (y ∘ g.targets)) i
        · have hq' : ∀ i, g.targets i ≠ q := fun i hi => hq ⟨i, hi⟩
          rw [g.ext_other x _ q hq', h q hq']
      have : g.mat x y = 0 := by
        unfold Gate.mat
        by_cases hc : ∀ t ∈ g.controls, y t.1 = t.2
        · rw [if_pos hc, if_neg hne]
        · rw [if_neg hc, if_neg (fun e => hne (fun q _ => by rw [e]))]
      rw [this, zero_mul]
    · intro y
      have hext : ∀ q, (∀ i, g.targets i ≠ q) → x q = g.ext x y q := fun q hq => (g.ext_other x y q hq).symm
      unfold Gate.mat
      rw [if_pos ((hctrl x _ hext).1 hx), if_pos hext, g.ext_target hg]
  · rw [if_neg hx, Finset.sum_eq_single x]
    · unfold Gate.mat
      rw [if_neg hx, if_pos rfl, one_mul]
    · intro y _ hy
      have : g.mat x y = 0 := by
        unfold Gate.mat
        by_cases hc : ∀ t ∈ g.controls, y t.1 = t.2
        · rw [if_pos hc, if_neg]
          intro h
          exact hx ((hctrl x y h).2 hc)
        · rw [if_neg hc, if_neg (Ne.symm hy)]
      rw [this, zero_mul]
    · intro h; exact absurd (Finset.mem_univ _) h

theorem swap_mulVec (a b : Fin n) (w : Basis n → ℂ) (x : Basis n) : (swapMat a b).mulVec w x = w (x ∘ Equiv.swap a b) := by
  unfold Matrix.mulVec dotProduct
  show ∑ y, swapMat a b x y * w y = _
  rw [Finset.sum_eq_single (x ∘ Equiv.swap a b)]
  · unfold swapMat
    rw [if_pos, one_mul]
    funext q; simp
  · intro y _ hy
    unfold swapMat
    rw [if_neg, zero_mul]
    intro h
    apply hy
    rw [h]; funext q; simp
  · intro h; exact absurd (Finset.mem_univ _) h

variable (hinj : ∀ p p', K p → K p' → e p = e p' → p = p')

include hinj

theorem swap_on {a b : Nat} (ha : K a) (hb : K b) {p : Nat} (hp : K p) :
    K (Equiv.swap a b p) ∧ e (Equiv.swap a b p) = Equiv.swap (e a) (e b) (e p) := by
  by_cases e1 : p = a
  · subst e1; rw [Equiv.swap_apply_left, Equiv.swap_apply_left]; exact ⟨hb, rfl⟩
  · by_cases e2 : p = b
    · subst e2; rw [Equiv.swap_apply_right, Equiv.swap_apply_right]; exact ⟨ha, rfl⟩
    · rw [Equiv.swap_apply_of_ne_of_ne e1 e2, Equiv.swap_apply_of_ne_of_ne (fun h => e1 (hinj _ _ hp ha h)) (fun h => e2 (hinj _ _ hp hb h))]
      exact ⟨hp, rfl⟩

theorem valid_on {s : WSOp} (hs : ∀ p, s.Names p → K p) (hp : s.Proper) : (s.on e).Valid := by
  cases s with
  | swap a b => trivial
  | barrier _ => trivial
  | gate g =>
    obtain ⟨h1, h2, h3⟩ := hp
    refine ⟨?_, ?_, h3⟩
    · intro i j hij
      exact h1 (hinj _ _ (hs _ (Or.inl ⟨i, rfl⟩)) (hs _ (Or.inl ⟨j, rfl⟩)) hij)
    · intro c hc i hi
      obtain ⟨c', hc', rfl⟩ := List.mem_map.1 hc
      exact h2 c' hc' i (hinj _ _ (hs _ (Or.inl ⟨i, rfl⟩)) (hs _ (Or.inr ⟨c'.2, hc'⟩)) hi)

theorem alike_step {s : WSOp} (hs : ∀ p, s.Names p → K p) (hp : s.Proper) {W : Bits → ℂ} {w : Basis n → ℂ} (h : Alike K e f W w) :
    Alike K e f (s.run W) ((s.on e).phys.mulVec w) := by
  have hv := valid_on hinj hs hp
  intro Z z hZ
  cases s with
  | barrier _ =>
    simp only [WSOp.run, WSOp.on, SOp.phys, Matrix.one_mulVec]
    exact h Z z hZ
  | swap a b =>
    simp only [WSOp.run, WSOp.on, SOp.phys, swap_mulVec]
    refine h _ _ ⟨fun p hp => ?_, fun i hi => ?_⟩
    · obtain ⟨h1, h2⟩ := swap_on hinj (hs a (Or.inl rfl)) (hs b (Or.inr rfl)) hp
      rw [Function.comp_apply, Function.comp_apply, hZ.1 _ h1, h2]
    · rw [Function.comp_apply, Equiv.swap_apply_of_ne_of_ne (Ne.symm (hi a (hs a (Or.inl rfl)))) (Ne.symm (hi b (hs b (Or.inr rfl)))), hZ.2 i hi]
  | gate g =>
    have hv : (g.on e).Valid := hv
    simp only [WSOp.run, WSOp.on, SOp.phys]
    rw [gate_mulVec hv]
    have hc : (∀ c ∈ g.controls, Z c.1 = c.2) ↔ ∀ c ∈ (g.on e).controls, z c.1 = c.2 := by
      simp only [WGate.on, List.forall_mem_map]
      exact forall₂_congr fun c hc => by rw [hZ.1 c.1 (hs _ (Or.inr ⟨c.2, hc⟩))]
    have ht : Z ∘ g.targets = z ∘ (g.on e).targets := by
      funext i
      exact hZ.1 _ (hs _ (Or.inl ⟨i, rfl⟩))
    by_cases h1 : ∀ c ∈ g.controls, Z c.1 = c.2
    · rw [if_pos h1, if_pos (hc.1 h1)]
      refine Finset.sum_congr rfl fun y _ => ?_
      rw [ht]
      congr 1
      refine h _ _ ⟨fun p hpK => ?_, fun i hi => ?_⟩
      on_goal 2 =>
        refine Eq.trans ((g.on e).ext_other z y i ?_) (hZ.2 i hi)
        intro j
        exact hi _ (hs _ (Or.inl ⟨j, rfl⟩))
      by_cases hi : ∃ i, g.targets i = p
      · obtain ⟨i, rfl⟩ := hi
        rw [hp.1.extend_apply]
        exact (congrFun ((g.on e).ext_target hv z y) i).symm
      · rw [Function.extend_apply' _ _ _ hi, hZ.1 p hpK]
        refine ((g.on e).ext_other z y (e p) ?_).symm
        intro i hi'
        exact hi ⟨i, hinj _ _ (hs _ (Or.inl ⟨i, rfl⟩)) hpK hi'⟩
    · rw [if_neg h1, if_neg fun h2 => h1 (hc.2 h2)]
      exact h _ _ hZ

theorem alike_list : ∀ (l : List WSOp), (∀ s ∈ l, ∀ p, s.Names p → K p) → (∀ s ∈ l, s.Proper) → ∀ {W : Bits → ℂ} {w : Basis n → ℂ},
    Alike K e f W w → Alike K e f (l.foldl (fun w s => s.run w) W) ((physList (l.map (WSOp.on e))).mulVec w) := by
  intro l
  induction l with
  | nil => intro _ _ W w h; simpa [physList] using h
  | cons s r ih =>
    intro hl hp W w h
    rw [List.map_cons, physList, ← Matrix.mulVec_mulVec, List.foldl_cons]
    exact ih (fun t ht => hl t (List.mem_cons_of_mem _ ht)) (fun t ht => hp t (List.mem_cons_of_mem _ ht))
      (alike_step hinj (hl s List.mem_cons_self) (hp s List.mem_cons_self) h)

theorem phys_on (o : WOp) : (o.on e).phys = physList (o.parts.map (WSOp.on e)) := by
  cases o with
  | simple s => simp [WOp.on, WOp.parts, Op.phys, physList]
  | compound l => rfl

theorem alike_ops : ∀ (l : List WOp), (∀ o ∈ l, ∀ p, o.Names p → K p) → (∀ o ∈ l, ∀ s ∈ o.parts, s.Proper) → ∀ {W : Bits → ℂ} {w : Basis n → ℂ},
    Alike K e f W w → Alike K e f (Wide.run l W) (execute (l.map (WOp.on e)) w) := by
  intro l
  induction l with
  | nil => intro _ _ W w h; exact h
  | cons o r ih =>
    intro hl hp W w h
    have e0 : Wide.run (o :: r) W = Wide.run r (o.parts.foldl (fun w s => s.run w) W) := by
      unfold Wide.run
      rw [List.flatMap_cons, List.foldl_append]
    rw [e0, List.map_cons, execute]
    refine ih (fun t ht => hl t (List.mem_cons_of_mem _ ht)) (fun t ht => hp t (List.mem_cons_of_mem _ ht)) ?_
    rw [phys_on hinj]
    refine alike_list hinj _ ?_ (hp o List.mem_cons_self) h
    intro s hs p hn
    exact hl o List.mem_cons_self p ⟨s, hs, hn⟩

/-- Both labellings agree, wire by wire. -/
def SameLabels (K : Nat → Prop) (e : Nat → Fin n) (σ : Nat → Nat) (τ : Equiv.Perm (Fin n)) : Prop := ∀ p, K p → σ p = (τ (e p)).val

theorem labels_list : ∀ (l : List WSOp), (∀ s ∈ l, ∀ p, s.Names p → K p) → ∀ {σ : Nat → Nat} {τ : Equiv.Perm (Fin n)},
    SameLabels K e σ τ → SameLabels K e (l.foldl WSOp.moved σ) ((l.map (WSOp.on e)).foldl SMoved τ) := by
  intro l
  induction l with
  | nil => intro _ σ τ h; exact h
  | cons s r ih =>
    intro hl σ τ h
    rw [List.map_cons, List.foldl_cons, List.foldl_cons]
    refine ih (fun t ht => hl t (List.mem_cons_of_mem _ ht)) ?_
    have hs := hl s List.mem_cons_self
    cases s with
    | gate g => exact h
    | barrier _ => exact h
    | swap a b =>
      intro p hp
      obtain ⟨h1, h2⟩ := swap_on hinj (hs a (Or.inl rfl)) (hs b (Or.inr rfl)) hp
      simp only [WSOp.moved, WSOp.on, SMoved, Function.comp_apply, Equiv.Perm.mul_apply]
      rw [h _ h1, h2]

theorem moved_on (o : WOp) (τ : Equiv.Perm (Fin n)) : Moved τ (o.on e) = (o.parts.map (WSOp.on e)).foldl SMoved τ := by
  cases o <;> rfl

theorem labels_ops : ∀ (l : List WOp), (∀ o ∈ l, ∀ p, o.Names p → K p) → ∀ {σ : Nat → Nat} {τ : Equiv.Perm (Fin n)},
    SameLabels K e σ τ → SameLabels K e ((l.flatMap WOp.parts).foldl WSOp.moved σ) ((l.map (WOp.on e)).foldl Moved τ) := by
  intro l
  induction l with
  | nil => intro _ σ τ h; exact h
  | cons o r ih =>
    intro hl σ τ h
    rw [List.map_cons, List.flatMap_cons, List.foldl_cons, List.foldl_append]
    refine ih (fun t ht => hl t (List.mem_cons_of_mem _ ht)) ?_
    rw [moved_on hinj]
    refine labels_list hinj _ ?_ h
    intro s hs p hn
    exact hl o List.mem_cons_self p ⟨s, hs, hn⟩

omit hinj in
theorem labels_settle : ∀ (out : Layout) (out' : List (Fin n × Fin n)), out'.map (fun t => (t.1, t.2.val)) = out.map (fun t => (e t.1, t.2)) →
    (∀ t ∈ out, K t.1) → ∀ {σ : Nat → Nat} {τ : Equiv.Perm (Fin n)}, SameLabels K e σ τ → SameLabels K e (settled out σ) (permAfter τ out') := by
  intro out
  induction out with
  | nil =>
    intro out' h _ σ τ hl
    rw [List.map_nil, List.map_eq_nil_iff] at h
    subst h
    exact hl
  | cons t out ih =>
    intro out' h hK σ τ hl
    cases out' with
    | nil => simp at h
    | cons t' out' =>
      rw [List.map_cons, List.map_cons, List.cons.injEq] at h
      obtain ⟨h0, h⟩ := h
      obtain ⟨h1, h2⟩ := Prod.mk.inj h0
      unfold permAfter
      refine ih out' h (fun t ht => hK t (List.mem_cons_of_mem _ ht)) ?_
      have ht := hK t List.mem_cons_self
      have e0 : (if τ t'.1 = t'.2 then τ else Equiv.swap (τ t'.1) t'.2 * τ) = Equiv.swap (τ t'.1) t'.2 * τ := by
        split
        · rename_i h; rw [h, Equiv.swap_self]; rfl
        · rfl
      rw [e0]
      intro p hp
      simp only [Function.comp_apply, Equiv.Perm.mul_apply]
      rw [hl p hp, hl _ ht, ← h2, h1]
      by_cases c1 : τ (e p) = τ (e t.1)
      · rw [c1, Equiv.swap_apply_left, Equiv.swap_apply_left]
      · by_cases c2 : τ (e p) = t'.2
        · rw [c2, Equiv.swap_apply_right, Equiv.swap_apply_right]
        · rw [Equiv.swap_apply_of_ne_of_ne c1 c2, Equiv.swap_apply_of_ne_of_ne (fun h => c1 (Fin.ext h)) (fun h => c2 (Fin.ext h))]

omit hinj

theorem smoved_rest {i : Fin n} : ∀ (l : List WSOp), (∀ s ∈ l, ∀ p, s.Names p → K p) → (∀ p, K p → e p ≠ i) → ∀ τ : Equiv.Perm (Fin n),
    (l.map (WSOp.on e)).foldl SMoved τ i = τ i := by
  intro l
  induction l with
  | nil => intro _ _ τ; rfl
  | cons s r ih =>
    intro hl hi τ
    rw [List.map_cons, List.foldl_cons, ih (fun t ht => hl t (List.mem_cons_of_mem _ ht)) hi]
    have hs := hl s List.mem_cons_self
    cases s with
    | gate g => rfl
    | barrier _ => rfl
    | swap a b =>
      simp only [WSOp.on, SMoved, Equiv.Perm.mul_apply]
      rw [Equiv.swap_apply_of_ne_of_ne (Ne.symm (hi a (hs a (Or.inl rfl)))) (Ne.symm (hi b (hs b (Or.inr rfl))))]

theorem moved_rest {i : Fin n} : ∀ (l : List WOp), (∀ o ∈ l, ∀ p, o.Names p → K p) → (∀ p, K p → e p ≠ i) → ∀ τ : Equiv.Perm (Fin n),
    (l.map (WOp.on e)).foldl Moved τ i = τ i := by
  intro l
  induction l with
  | nil => intro _ _ τ; rfl
  | cons o r ih =>
    intro hl hi τ
    rw [List.map_cons, List.foldl_cons, ih (fun t ht => hl t (List.mem_cons_of_mem _ ht)) hi]
    have : Moved τ (o.on e) = (o.parts.map (WSOp.on e)).foldl SMoved τ := by cases o <;> rfl
    rw [this]
    refine smoved_rest _ ?_ hi τ
    intro s hs p hn
    exact hl o List.mem_cons_self p ⟨s, hs, hn⟩

/-- The part of a basis state that belongs to the first `n` logical qubits. -/
def low (n : Nat) (x : Bits) : Basis n := fun q => x q.val

/-- A basis state of `n` qubits, continued by another one. -/
def join (y : Basis n) (x : Bits) : Bits := fun q => if h : q < n then y ⟨q, h⟩ else x q

theorem join_low (x : Bits) : join (low n x) x = x := by
  funext q; unfold join low; split <;> rfl

theorem low_join (y : Basis n) (x : Bits) : low n (join y x) = y := by
  funext q
  show (if h : q.val < n then y ⟨q.val, h⟩ else x q.val) = y q
  rw [dif_pos q.isLt]

variable {c : Circ WOp} {qc : QC n}

/-- The labels at the end: those of the numbered qubits, and those of the rest. -/
theorem labels_numbered (hc : Wired c) (h : Numbered e c qc) :
    SameLabels (fun p => ∃ q, (p, q) ∈ c.initialLayout) e (endLabel c) (finalLabels qc) ∧
      ∀ i, (∀ p, (∃ q, (p, q) ∈ c.initialLayout) → e p ≠ i) → finalLabels qc i = qc.initialLayout i := by
  have hinj : ∀ p p', (∃ q, (p, q) ∈ c.initialLayout) → (∃ q, (p', q) ∈ c.initialLayout) → e p = e p' → p = p' := by
    rintro p p' ⟨q, hq⟩ ⟨q', hq'⟩ he
    exact h.inj p p' q q' hq hq' he
  have hlab0 : SameLabels (fun p => ∃ q, (p, q) ∈ c.initialLayout) e (startLabel c) qc.initialLayout := by
    rintro p ⟨q, hq⟩
    rw [hc.startLabel_eq hq, h.initial _ _ hq]
  have hlab : SameLabels (fun p => ∃ q, (p, q) ∈ c.initialLayout) e (endLabel c) (finalLabels qc) := by
    unfold endLabel finalLabels
    refine labels_settle _ _ h.output (fun t ht => hc.outInside t.1 t.2 ht) ?_
    rw [h.ops]
    exact labels_ops hinj _ hc.inside hlab0
  have hrest : ∀ i, (∀ p, (∃ q, (p, q) ∈ c.initialLayout) → e p ≠ i) → finalLabels qc i = qc.initialLayout i := by
    intro i hi
    have hmv : qc.ops.foldl Moved qc.initialLayout i = qc.initialLayout i := by
      rw [h.ops]
      exact moved_rest _ hc.inside hi _
    unfold finalLabels
    rw [← hmv]
    refine permAfter_keeps _ _ _ _ rfl ?_ ?_
    · intro t ht he
      have : (t.1, t.2.val) ∈ c.outputPermutation.map (fun t => (e t.1, t.2)) := by
        rw [← h.output]; exact List.mem_map.2 ⟨t, ht, rfl⟩
      obtain ⟨t', ht', he'⟩ := List.mem_map.1 this
      exact hi t'.1 (hc.outInside _ _ ht') (((Prod.mk.inj he').1).trans he)
    · intro t ht he
      have : (t.1, t.2.val) ∈ c.outputPermutation.map (fun t => (e t.1, t.2)) := by
        rw [← h.output]; exact List.mem_map.2 ⟨t, ht, rfl⟩
      obtain ⟨t', ht', he'⟩ := List.mem_map.1 this
      obtain ⟨p', hp'⟩ := hc.outRange _ _ ht'
      have e3 := h.initial _ _ hp'
      rw [(Prod.mk.inj he').2, he, hmv] at e3
      exact hi p' ⟨_, hp'⟩ (qc.initialLayout.injective (Fin.ext e3))
  exact ⟨hlab, hrest⟩

/-- **The bridge**: the circuit on the unlimited register and its counted version have the same outputs. -/
theorem output_numbered (hc : Wired c) (h : Numbered e c qc) (v : Bits → ℂ) (x : Bits) :
    Wide.output c v x = Spec.output qc (finalLabels qc) (fun y => v (join y x)) (low n x) := by
  have hinj : ∀ p p', (∃ q, (p, q) ∈ c.initialLayout) → (∃ q, (p', q) ∈ c.initialLayout) → e p = e p' → p = p' := by
    rintro p p' ⟨q, hq⟩ ⟨q', hq'⟩ he
    exact h.inj p p' q q' hq hq' he
  have hlab0 : SameLabels (fun p => ∃ q, (p, q) ∈ c.initialLayout) e (startLabel c) qc.initialLayout := by
    rintro p ⟨q, hq⟩
    rw [hc.startLabel_eq hq, h.initial _ _ hq]
  obtain ⟨hlab, hrest⟩ := labels_numbered hc h
  unfold Wide.output Spec.output readOut
  rw [h.ops]
  refine alike_ops (f := fun i => x (qc.initialLayout i).val) hinj _ hc.inside hc.proper ?_ _ _ ⟨?_, ?_⟩
  · intro Z z hZ
    unfold load
    beta_reduce
    congr 1
    funext q
    unfold join
    by_cases hq : ∃ p, (p, q) ∈ c.initialLayout
    · have hm := hc.carrier_mem hq
      have hqn : q < n := by rw [← h.width]; exact hc.range _ _ hm
      rw [if_pos hq, dif_pos hqn, hZ.1 _ ⟨q, hm⟩]
      congr 1
      rw [Equiv.eq_symm_apply]
      exact Fin.ext (h.initial _ _ hm)
    · rw [if_neg hq]
      by_cases hqn : q < n
      · rw [dif_pos hqn]
        beta_reduce
        rw [hZ.2]
        · simp
        · rintro p ⟨q', hp⟩ he
          have := h.initial _ _ hp
          rw [he] at this
          simp only [Equiv.apply_symm_apply] at this
          exact hq ⟨p, this ▸ hp⟩
      · rw [dif_neg hqn]
  · intro p hp
    unfold low
    rw [Function.comp_apply, hlab p hp]
  · intro i hi
    show x (finalLabels qc i).val = _
    rw [hrest i hi]

theorem numbered_wellFormed (hc : Wired c) (h : Numbered e c qc) : WellFormed qc (finalLabels qc) := by
  have hinj : ∀ p p', (∃ q, (p, q) ∈ c.initialLayout) → (∃ q, (p', q) ∈ c.initialLayout) → e p = e p' → p = p' := by
    rintro p p' ⟨q, hq⟩ ⟨q', hq'⟩ he
    exact h.inj p p' q q' hq hq' he
  refine ⟨?_, ?_, rfl⟩
  · rw [h.ops]
    intro o ho
    obtain ⟨o', ho', rfl⟩ := List.mem_map.1 ho
    cases o' with
    | simple s => exact valid_on hinj (fun p hp => hc.inside _ ho' p ⟨s, List.mem_singleton.2 rfl, hp⟩) (hc.proper _ ho' s (List.mem_singleton.2 rfl))
    | compound l =>
      intro s hs
      obtain ⟨s', hs', rfl⟩ := List.mem_map.1 hs
      exact valid_on hinj (fun p hp => hc.inside _ ho' p ⟨s', hs', hp⟩) (hc.proper _ ho' s' hs')
  · constructor
    · have h1 : qc.outputPermutation.map Prod.fst = (c.outputPermutation.map Prod.fst).map e := by
        have := congrArg (List.map Prod.fst) h.output
        rw [List.map_map, List.map_map] at this
        rw [List.map_map]
        exact this
      rw [h1]
      refine List.Nodup.map_on ?_ hc.outKeys
      intro a ha b hb hab
      obtain ⟨t, ht, rfl⟩ := List.mem_map.1 ha
      obtain ⟨t', ht', rfl⟩ := List.mem_map.1 hb
      exact hinj _ _ (hc.outInside t.1 t.2 ht) (hc.outInside t'.1 t'.2 ht') hab
    · have h1 : (qc.outputPermutation.map Prod.snd).map Fin.val = c.outputPermutation.map Prod.snd := by
        have := congrArg (List.map Prod.snd) h.output
        rw [List.map_map, List.map_map] at this
        rw [List.map_map]
        exact this
      refine List.Nodup.of_map Fin.val ?_
      rw [h1]
      exact hc.outInj

/-- Every circuit has a counted version: count the physical qubits by the logical qubits they start with. -/
theorem exists_numbered (hc : Wired c) (hn : c.nqubits = n) (h0 : 0 < n) : ∃ (e : Nat → Fin n) (qc : QC n), Numbered e c qc := by
  refine ⟨fun p => ⟨startLabel c p % n, Nat.mod_lt _ h0⟩,
    { ops := c.ops.map (WOp.on fun p => ⟨startLabel c p % n, Nat.mod_lt _ h0⟩)
      initialLayout := 1
      outputPermutation := c.outputPermutation.map fun t => (⟨startLabel c t.1 % n, Nat.mod_lt _ h0⟩, ⟨t.2 % n, Nat.mod_lt _ h0⟩)
      ancillary := c.ancillary
      garbage := c.garbage }, ?_⟩
  have hl : ∀ p q, (p, q) ∈ c.initialLayout → startLabel c p % n = q := by
    intro p q hp
    rw [hc.startLabel_eq hp]
    exact Nat.mod_eq_of_lt (hn ▸ hc.range p q hp)
  refine ⟨hn, ?_, rfl, ?_, ?_, fun _ _ => rfl, fun _ _ => rfl⟩
  · intro p p' q q' hp hp' he
    have he : startLabel c p % n = startLabel c p' % n := congrArg Fin.val he
    rw [hl p q hp, hl p' q' hp'] at he
    subst he
    exact Layout.value_inj hc.inj hp hp'
  · intro p q hp
    exact hl p q hp
  · rw [List.map_map]
    refine List.map_congr_left fun t ht => ?_
    show (_, t.2 % n) = _
    obtain ⟨p', hp'⟩ := hc.outRange t.1 t.2 ht
    rw [Nat.mod_eq_of_lt (hn ▸ hc.range _ _ hp')]

/-- **Equivalence of two circuits and of their counted versions is the same**, for any set of fixed inputs. -/
theorem sameOn_numbered {e1 e2 : Nat → Fin n} {c1 c2 : Circ WOp} {qc1 qc2 : QC n} (hc1 : Wired c1) (hc2 : Wired c2)
    (h1 : Numbered e1 c1 qc1) (h2 : Numbered e2 c2 qc2) (anc : List Bool) {F : Nat → Prop}
    (ha : ∀ q, q < n → (anc.getD q false = true ↔ F q)) (k : ℂ) :
    SameUpTo k anc qc1 (finalLabels qc1) qc2 (finalLabels qc2) ↔ EqualOn F k c1 c2 := by
  constructor
  · intro h v hv x
    rw [output_numbered hc1 h1, output_numbered hc2 h2]
    refine congrFun (h (fun y => v (join y x)) ?_) (low n x)
    intro y hy q hq
    have := hv _ hy q.val ((ha q.val q.isLt).1 hq)
    unfold join at this
    rwa [dif_pos q.isLt] at this
  · intro h v hv
    funext y
    classical
    have := h (fun X => if ∀ q, n ≤ q → X q = false then v (low n X) else 0) ?_ (join y fun _ => false)
    · rw [output_numbered hc1 h1, output_numbered hc2 h2, low_join] at this
      have e0 : (fun y' => (fun X : Bits => if ∀ q, n ≤ q → X q = false then v (low n X) else 0) (join y' (join y fun _ => false))) = v := by
        funext y'
        beta_reduce
        rw [if_pos, low_join]
        intro q hq
        unfold join
        rw [dif_neg (by omega), dif_neg (by omega)]
      rw [e0] at this
      rw [this]; rfl
    · intro X hX q hq
      beta_reduce at hX
      split at hX
      · rename_i h0
        by_cases hn : q < n
        · exact hv _ hX ⟨q, hn⟩ ((ha q hn).2 hq)
        · exact h0 q (by omega)
      · exact absurd rfl hX

/-- **Equivalence of two circuits and of their counted versions is the same.** -/
theorem same_numbered {e1 e2 : Nat → Fin n} {c1 c2 : Circ WOp} {qc1 qc2 : QC n} (hc1 : Wired c1) (hc2 : Wired c2)
    (h1 : Numbered e1 c1 qc1) (h2 : Numbered e2 c2 qc2) (anc : List Bool)
    (ha : ∀ q, q < n → (anc.getD q false = true ↔ Fixed c1 c2 q)) (k : ℂ) :
    SameUpTo k anc qc1 (finalLabels qc1) qc2 (finalLabels qc2) ↔ EqualUpTo k c1 c2 := sameOn_numbered hc1 hc2 h1 h2 anc ha k

/-! ## Setting up both circuits -/

theorem common_setup {c1 c2 r1 r2 : Circ WOp} (hp : Padded c2.nqubits c1 r1) (hs : SurplusMarked c1.nqubits c2 r2)
    (q : Nat) : FixedInBoth r1 r2 q ↔ FixedInBoth c1 c2 q := by
  unfold FixedInBoth
  rw [hp.width, hs.width]
  by_cases h1 : c2.nqubits ≤ q
  · simp [h1]
  · have h1' : q < c2.nqubits := by omega
    rw [hs.ancillary q h1']
    by_cases h2 : c1.nqubits ≤ q
    · simp [h1, h2, (hp.new q h2 h1').1]
    · rw [(hp.old q (by omega)).1]
      simp [h1, h2]

theorem common_comm {c1 c2 : Circ WOp} (q : Nat) : FixedInBoth c1 c2 q ↔ FixedInBoth c2 c1 q := by unfold FixedInBoth; tauto

theorem equalOn_congr {c1 c2 r1 r2 : Circ WOp} (h1 : ∀ v x, Wide.output r1 v x = Wide.output c1 v x) (h2 : ∀ v x, Wide.output r2 v x = Wide.output c2 v x)
    {F F' : Nat → Prop} (hf : ∀ q, F' q ↔ F q) (k : ℂ) : EqualOn F' k r1 r2 ↔ EqualOn F k c1 c2 := by
  have hf' : F' = F := funext fun q => propext (hf q)
  unfold EqualOn
  simp only [h1, h2, hf']

theorem fixed_setup {c1 c2 r1 r2 : Circ WOp} (hle : c1.nqubits ≤ c2.nqubits) (hp : Padded c2.nqubits c1 r1) (hs : SurplusMarked c1.nqubits c2 r2)
    (q : Nat) : Fixed r1 r2 q ↔ Fixed c1 c2 q := by
  unfold Fixed
  rw [hp.width, hs.width]
  by_cases h1 : c2.nqubits ≤ q
  · simp [h1]
  · have h1' : q < c2.nqubits := by omega
    rw [hs.ancillary q h1']
    by_cases h2 : c1.nqubits ≤ q
    · simp [h1, h2]
    · rw [(hp.old q (by omega)).1]
      simp [h1, h2]

theorem fixed_comm {c1 c2 : Circ WOp} (q : Nat) : Fixed c1 c2 q ↔ Fixed c2 c1 q := by unfold Fixed; tauto

theorem equal_congr {c1 c2 r1 r2 : Circ WOp} (h1 : ∀ v x, Wide.output r1 v x = Wide.output c1 v x) (h2 : ∀ v x, Wide.output r2 v x = Wide.output c2 v x)
    (hf : ∀ q, Fixed r1 r2 q ↔ Fixed c1 c2 q) (k : ℂ) : EqualUpTo k r1 r2 ↔ EqualUpTo k c1 c2 := by
  have hf' : Fixed r1 r2 = Fixed c1 c2 := funext fun q => propext (hf q)
  unfold EqualUpTo
  simp only [h1, h2, hf']

end QCEC.Wide
