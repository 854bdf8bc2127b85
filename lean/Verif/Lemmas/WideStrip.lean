import Verif.Lemmas.Wide
/-!
# Lemmas: removing idle qubits does not change what a circuit does
-/
namespace QCEC.Wide
open QCEC QCEC.Prep QCEC.Spec QCEC.Spec.Wide

variable {acts : WOp → Nat → Bool} {R : List Nat} {c r : Circ WOp}

/-- The output permutation of the stripped circuit, as a list. -/
theorem stripped_out (hc : CircOk c) (hr : CircOk r) (h : Stripped acts R c r) :
    r.outputPermutation = (c.outputPermutation.filter fun e => decide (e.2 ∉ R)).map fun e => (e.1, newIndex R e.2) := by
  refine Layout.ext hr.outKeys ?_ ?_
  · rw [List.map_map]
    have : (Prod.fst ∘ fun e : Nat × Nat => (e.1, newIndex R e.2)) = Prod.fst := rfl
    rw [this]
    exact hc.outKeys.sublist (List.filter_sublist.map _)
  · intro p q'
    rw [h.output]
    simp only [List.mem_map, List.mem_filter, decide_eq_true_eq, Prod.exists, Prod.mk.injEq]
    constructor
    · rintro ⟨q, h1, h2, rfl⟩; exact ⟨p, q, ⟨h1, h2⟩, rfl, rfl⟩
    · rintro ⟨p', q, ⟨h1, h2⟩, rfl, rfl⟩; exact ⟨q, h1, h2, rfl⟩

/-- Labels before and after stripping agree: kept wires have corresponding kept labels, the wire of a removed qubit has its own label. -/
structure Agree (R : List Nat) (c r : Circ WOp) (σ σ' : Nat → Nat) : Prop where
  kept : ∀ p q, (p, q) ∈ c.initialLayout → q ∉ R → σ p ∉ R ∧ σ p < c.nqubits ∧ σ' p = newIndex R (σ p)
  gone : ∀ p q, (p, q) ∈ c.initialLayout → q ∈ R → σ p = q

theorem agree_start (hc : CircOk c) (hr : CircOk r) (h : Stripped acts R c r) : Agree R c r (startLabel c) (startLabel r) where
  kept p q hp hq := by
    rw [startLabel_eq hc hp, startLabel_eq hr ((h.initial _ _).2 ⟨q, hp, hq, rfl⟩)]
    exact ⟨hq, (hc.onto q).1 ⟨p, hp⟩, rfl⟩
  gone p q hp _ := startLabel_eq hc hp

theorem agree_moved (hc : CircOk c) {σ σ' : Nat → Nat} (ha : Agree R c r σ σ') {s : WSOp}
    (hs : ∀ p, s.Names p → ∃ q, (p, q) ∈ c.initialLayout ∧ q ∉ R) : Agree R c r (s.moved σ) (s.moved σ') := by
  cases s with
  | gate g => exact ha
  | barrier _ => exact ha
  | swap a b =>
    obtain ⟨qa, ha1, ha2⟩ := hs a (Or.inl rfl)
    obtain ⟨qb, hb1, hb2⟩ := hs b (Or.inr rfl)
    refine ⟨?_, ?_⟩
    · intro p q hp hq
      simp only [WSOp.moved, Function.comp_apply]
      by_cases e1 : p = a
      · subst e1; rw [Equiv.swap_apply_left]; exact ha.kept _ _ hb1 hb2
      · by_cases e2 : p = b
        · subst e2; rw [Equiv.swap_apply_right]; exact ha.kept _ _ ha1 ha2
        · rw [Equiv.swap_apply_of_ne_of_ne e1 e2]; exact ha.kept _ _ hp hq
    · intro p q hp hq
      simp only [WSOp.moved, Function.comp_apply]
      rw [Equiv.swap_apply_of_ne_of_ne]
      · exact ha.gone _ _ hp hq
      · rintro rfl
        exact ha2 (Layout.key_inj (Layout.nodup_of_lt hc.keys) ha1 hp ▸ hq)
      · rintro rfl
        exact hb2 (Layout.key_inj (Layout.nodup_of_lt hc.keys) hb1 hp ▸ hq)

theorem agree_ops (hc : CircOk c) : ∀ (l : List WSOp), (∀ s ∈ l, ∀ p, s.Names p → ∃ q, (p, q) ∈ c.initialLayout ∧ q ∉ R) →
    ∀ {σ σ' : Nat → Nat}, Agree R c r σ σ' → Agree R c r (l.foldl WSOp.moved σ) (l.foldl WSOp.moved σ') := by
  intro l
  induction l with
  | nil => intro _ σ σ' h; exact h
  | cons s l ih =>
    intro hl σ σ' h
    exact ih (fun s' hs' => hl s' (List.mem_cons_of_mem _ hs')) (agree_moved hc h (hl s List.mem_cons_self))

theorem agree_settle (hc : CircOk c) : ∀ (out : Layout),
    (∀ e ∈ out, (e.2 ∈ R → (e.1, e.2) ∈ c.initialLayout) ∧ (e.2 ∉ R → e.2 < c.nqubits ∧ ∃ q, (e.1, q) ∈ c.initialLayout ∧ q ∉ R)) →
    ∀ {σ σ' : Nat → Nat}, Agree R c r σ σ' →
      Agree R c r (settled out σ) (settled ((out.filter fun e => decide (e.2 ∉ R)).map fun e => (e.1, newIndex R e.2)) σ') := by
  intro out
  induction out with
  | nil => intro _ σ σ' h; exact h
  | cons e out ih =>
    intro hout σ σ' ha
    obtain ⟨p, q⟩ := e
    have he := hout (p, q) List.mem_cons_self
    have ih' := fun {σ σ'} => @ih (fun e h => hout e (List.mem_cons_of_mem _ h)) σ σ'
    by_cases hq : q ∈ R
    · -- the entry of a removed qubit changes nothing
      rw [List.filter_cons_of_neg (by simpa using hq)]
      have hσ : Equiv.swap (σ p) q ∘ σ = σ := by
        rw [ha.gone _ _ (he.1 hq) hq]
        simp
      show Agree R c r (settled out (Equiv.swap (σ p) q ∘ σ)) _
      rw [hσ]
      exact ih' ha
    · rw [List.filter_cons_of_pos (by simpa using hq), List.map_cons]
      show Agree R c r (settled out (Equiv.swap (σ p) q ∘ σ)) (settled _ (Equiv.swap (σ' p) (newIndex R q) ∘ σ'))
      refine ih' ?_
      obtain ⟨hqn, q0, hp, hq0⟩ := he.2 hq
      obtain ⟨k1, k2, k3⟩ := ha.kept _ _ hp hq0
      refine ⟨?_, ?_⟩
      · intro p2 q2 hp2 hq2
        obtain ⟨m1, m2, m3⟩ := ha.kept _ _ hp2 hq2
        simp only [Function.comp_apply]
        rw [m3, k3]
        by_cases e1 : σ p2 = σ p
        · rw [e1, Equiv.swap_apply_left, Equiv.swap_apply_left]
          exact ⟨hq, hqn, rfl⟩
        · by_cases e2 : σ p2 = q
          · rw [e2, Equiv.swap_apply_right, Equiv.swap_apply_right]
            exact ⟨k1, k2, rfl⟩
          · rw [Equiv.swap_apply_of_ne_of_ne e1 e2, Equiv.swap_apply_of_ne_of_ne]
            · exact ⟨m1, m2, rfl⟩
            · intro h; exact e1 (newIndex_inj m1 k1 h)
            · intro h; exact e2 (newIndex_inj m1 hq h)
      · intro p2 q2 hp2 hq2
        have m := ha.gone _ _ hp2 hq2
        simp only [Function.comp_apply]
        rw [m, Equiv.swap_apply_of_ne_of_ne]
        · rintro rfl; exact k1 hq2
        · rintro rfl; exact hq hq2

/-- Operations of a stripped circuit name kept wires only. -/
theorem names_kept (hacts : Reliable acts) (hc : Runnable c) (h : Stripped acts R c r) {s : WSOp} (hs : s ∈ c.ops.flatMap WOp.parts) {p : Nat}
    (hn : s.Names p) : ∃ q, (p, q) ∈ c.initialLayout ∧ q ∉ R := by
  obtain ⟨o, ho, hso⟩ := List.mem_flatMap.1 hs
  obtain ⟨q, hq⟩ := hc.inside o ho p ⟨s, hso, hn⟩
  refine ⟨q, hq, fun hR => ?_⟩
  exact hacts o p ((h.idle q hR p hq).1 o ho) ⟨s, hso, hn⟩

theorem agree_end (hacts : Reliable acts) (hc : Runnable c) (hr : CircOk r) (h : Stripped acts R c r) :
    Agree R c r (endLabel c) (endLabel r) := by
  unfold endLabel
  rw [stripped_out hc.ok hr h, h.ops]
  refine agree_settle hc.ok _ ?_ (agree_ops hc.ok _ (fun s hs p hn => names_kept hacts hc h hs hn) (agree_start hc.ok hr h))
  rintro ⟨p, q⟩ he
  refine ⟨fun hq => ?_, fun hq => ⟨hc.ok.outRange _ _ he, ?_⟩⟩
  · have hqn := hc.ok.outRange _ _ he
    obtain ⟨p', hp'⟩ := (hc.ok.onto q).2 hqn
    rcases (h.idle q hq p' hp').2 with hs | ⟨_, hs⟩
    · have := Layout.value_inj hc.ok.outInj he hs
      subst this
      exact hp'
    · exact absurd he (hs p)
  · obtain ⟨q', hp⟩ := hc.outInside _ _ he
    refine ⟨q', hp, fun hR => ?_⟩
    rcases (h.idle q' hR p hp).2 with hs | ⟨hs, _⟩
    · have := Layout.key_inj (Layout.nodup_of_lt hc.ok.outKeys) he hs
      exact hq (this ▸ hR)
    · exact hs q he

/-- The input of the stripped circuit for an input of the circuit, when the removed qubits are read out as in `x`. -/
noncomputable def restrictIn (R : List Nat) (v : Bits → ℂ) (x : Bits) : Bits → ℂ := fun y' => v fun q => if q ∈ R then x q else y' (newIndex R q)

theorem output_ok (h : CircOk c) (v : Bits → ℂ) (x : Bits) :
    output c v x = run c.ops (fun z => v fun q => if q < c.nqubits then z (carrier c q) else x q) (x ∘ endLabel c) := by
  unfold Wide.output
  simp only [h.onto]

/-- **Main lemma**: the stripped circuit computes the same amplitudes. -/
theorem output_stripped (hacts : Reliable acts) (hc : Runnable c) (hr : CircOk r) (h : Stripped acts R c r) (v : Bits → ℂ) (x : Bits) :
    output c v x = output r (restrictIn R v x) (x ∘ oldIndex R) := by
  have hag := agree_end hacts hc hr h
  -- the physical input state of the stripped circuit
  have hw : (fun z : Bits => restrictIn R v x fun q' => if q' < r.nqubits then z (carrier r q') else (x ∘ oldIndex R) q') =
      fun z => v fun q => if q ∈ R then x q else if q < c.nqubits then z (carrier c q) else x q := by
    funext z
    simp only [restrictIn]
    congr 1
    funext q
    by_cases hq : q ∈ R
    · rw [if_pos hq, if_pos hq]
    · rw [if_neg hq, if_neg hq, h.width]
      by_cases hn : q < c.nqubits
      · rw [if_pos ((newIndex_lt_iff hq _).2 hn), if_pos hn]
        rw [carrier_eq hr ((h.initial _ _).2 ⟨q, carrier_mem hc.ok hn, hq, rfl⟩)]
      · rw [if_neg fun h => hn ((newIndex_lt_iff hq _).1 h), if_neg hn, Function.comp_apply, oldIndex_newIndex hq]
  rw [output_ok hc.ok, output_ok hr, hw, h.ops]
  unfold run
  have hnames := fun s hs p hn => names_kept (p := p) (s := s) hacts hc h hs hn
  -- 1: wires of removed qubits keep their value
  have e1 : (c.ops.flatMap WOp.parts).foldl (fun w s => s.run w) (fun z => v fun q => if q < c.nqubits then z (carrier c q) else x q)
        (x ∘ endLabel c) =
      (c.ops.flatMap WOp.parts).foldl (fun w s => s.run w)
        (fun z => v fun q => if q ∈ R then x q else if q < c.nqubits then z (carrier c q) else x q) (x ∘ endLabel c) := by
    refine runS_congr (T := fun p => ∃ q ∈ R, (p, q) ∈ c.initialLayout) _ ?_ (z0 := x ∘ endLabel c) ?_ _ (fun _ _ => rfl)
    · rintro s hs p ⟨q, hq, hp⟩ hn
      obtain ⟨q', hp', hq'⟩ := hnames s hs p hn
      exact hq' (Layout.key_inj (Layout.nodup_of_lt hc.ok.keys) hp hp' ▸ hq)
    · intro z hz
      congr 1
      funext q
      by_cases hq : q ∈ R
      · rw [if_pos hq]
        split
        · rename_i hn
          have hm := carrier_mem hc.ok hn
          rw [hz _ ⟨q, hq, hm⟩, Function.comp_apply, hag.gone _ _ hm hq]
        · rfl
      · rw [if_neg hq]
  -- 2: nothing depends on the other wires
  rw [e1]
  refine runS_indep (T := fun p => ¬ ∃ q, (p, q) ∈ c.initialLayout ∧ q ∉ R) _ ?_ ?_ _ _ ?_
  · intro s hs p hp hn
    exact hp (hnames s hs p hn)
  · intro z z' hz
    congr 1
    funext q
    by_cases hq : q ∈ R
    · rw [if_pos hq, if_pos hq]
    · rw [if_neg hq, if_neg hq]
      split
      · rename_i hn
        exact hz _ (not_not_intro ⟨q, carrier_mem hc.ok hn, hq⟩)
      · rfl
  · intro p hp
    obtain ⟨q, hp, hq⟩ := not_not.1 hp
    obtain ⟨k1, _, k3⟩ := hag.kept _ _ hp hq
    simp only [Function.comp_apply]
    rw [k3, oldIndex_newIndex k1]

/-- The stripped circuit can be run. -/
theorem runnable_stripped (hacts : Reliable acts) (hc : Runnable c) (hr : CircOk r) (h : Stripped acts R c r) : Runnable r where
  ok := hr
  proper := by rw [h.ops]; exact hc.proper
  inside := by
    rw [h.ops]
    rintro o ho p ⟨s, hs, hn⟩
    obtain ⟨q, hp, hq⟩ := names_kept hacts hc h (List.mem_flatMap.2 ⟨o, ho, hs⟩) hn
    exact ⟨_, (h.initial _ _).2 ⟨q, hp, hq, rfl⟩⟩
  outInside := by
    intro p q' hpq
    obtain ⟨q, hp, hq, rfl⟩ := (h.output _ _).1 hpq
    obtain ⟨q', hp'⟩ := hc.outInside _ _ hp
    refine ⟨_, (h.initial _ _).2 ⟨q', hp', fun hR => ?_, rfl⟩⟩
    rcases (h.idle q' hR p hp').2 with hs | ⟨hs, _⟩
    · exact hq (Layout.key_inj (Layout.nodup_of_lt hc.ok.outKeys) hp hs ▸ hR)
    · exact hs q hp

/-- Ancillary qubits, before and after. -/
theorem ancillary_stripped {c r : Circ WOp} (hc : CircOk c) (hr : CircOk r) (h : Stripped acts R c r) {q : Nat} (hq : q ∉ R) :
    r.isAncillary (newIndex R q) = true ↔ c.isAncillary q = true := by
  by_cases hn : q < c.nqubits
  · rw [(h.flags q hn hq).1]
  · have e1 : c.isAncillary q = false := by
      rw [Circ.isAncillary, List.getD_eq_getElem?_getD, List.getElem?_eq_none (by rw [hc.ancillary]; omega)]; rfl
    have e2 : r.isAncillary (newIndex R q) = false := by
      have := newIndex_mono R (Nat.le_of_not_lt hn)
      rw [Circ.isAncillary, List.getD_eq_getElem?_getD, List.getElem?_eq_none (by rw [hr.ancillary, h.width]; omega)]; rfl
    rw [e1, e2]

/-- Qubits fixed to zero, before and after. -/
theorem fixed_stripped {c2 r2 : Circ WOp} (hc : CircOk c) (hc2 : CircOk c2) (h : Stripped acts R c r) (h2 : Stripped acts R c2 r2)
    (hr : CircOk r) (hr2 : CircOk r2) {q : Nat} (hq : q ∉ R) :
    Fixed r r2 (newIndex R q) ↔ Fixed c c2 q := by
  unfold Fixed
  rw [ancillary_stripped hc hr h hq, ancillary_stripped hc2 hr2 h2 hq, h.width, h2.width]
  have w : ∀ n, newIndex R n ≤ newIndex R q ↔ n ≤ q := by
    intro n
    have := newIndex_lt_iff hq n
    omega
  rw [w, w]

/-- The same for the common ancillary qubits. -/
theorem common_stripped {c2 r2 : Circ WOp} (hc : CircOk c) (hc2 : CircOk c2) (h : Stripped acts R c r) (h2 : Stripped acts R c2 r2)
    (hr : CircOk r) (hr2 : CircOk r2) {q : Nat} (hq : q ∉ R) :
    FixedInBoth r r2 (newIndex R q) ↔ FixedInBoth c c2 q := by
  unfold FixedInBoth
  rw [ancillary_stripped hc hr h hq, ancillary_stripped hc2 hr2 h2 hq, h.width, h2.width]
  have w : ∀ n, newIndex R n ≤ newIndex R q ↔ n ≤ q := by
    intro n
    have := newIndex_lt_iff hq n
    omega
  rw [w, w]

/-- **Stripping preserves equivalence**, for any set of fixed inputs. -/
theorem equalOn_stripped {c2 r2 : Circ WOp} (hacts : Reliable acts) (hc : Runnable c) (hc2 : Runnable c2) (h : Stripped acts R c r)
    (h2 : Stripped acts R c2 r2) (hr : CircOk r) (hr2 : CircOk r2) {F F' : Nat → Prop} (hF : ∀ q, q ∉ R → (F' (newIndex R q) ↔ F q)) (k : ℂ) :
    EqualOn F' k r r2 ↔ EqualOn F k c c2 := by
  constructor
  · intro he v hv x
    rw [output_stripped hacts hc hr h, output_stripped hacts hc2 hr2 h2]
    refine he _ ?_ _
    intro y' hy' q' hq'
    have := hv _ hy' (oldIndex R q') ((hF _ (oldIndex_kept R q')).1 (by rwa [newIndex_oldIndex]))
    rwa [if_neg (oldIndex_kept R q'), newIndex_oldIndex] at this
  · intro he v' hv' x'
    classical
    let v : Bits → ℂ := fun y => if ∀ q ∈ R, y q = false then v' (y ∘ oldIndex R) else 0
    let x : Bits := fun q => if q ∈ R then false else x' (newIndex R q)
    have hx : x ∘ oldIndex R = x' := by
      funext q'
      simp only [x, Function.comp_apply]
      rw [if_neg (oldIndex_kept R q'), newIndex_oldIndex]
    have hv : restrictIn R v x = v' := by
      funext y'
      simp only [restrictIn, v]
      rw [if_pos]
      · congr 1
        funext q'
        simp only [Function.comp_apply]
        rw [if_neg (oldIndex_kept R q'), newIndex_oldIndex]
      · intro q hq
        rw [if_pos hq]
        simp only [x]
        rw [if_pos hq]
    have := he v ?_ x
    · rwa [output_stripped hacts hc hr h, output_stripped hacts hc2 hr2 h2, hx, hv] at this
    · intro y hy q hq
      simp only [v] at hy
      split at hy
      · rename_i hR
        by_cases hqR : q ∈ R
        · exact hR q hqR
        · have := hv' _ hy (newIndex R q) ((hF q hqR).2 hq)
          rwa [Function.comp_apply, oldIndex_newIndex hqR] at this
      · exact absurd rfl hy

/-- **Stripping preserves equivalence.** -/
theorem equal_stripped {c2 r2 : Circ WOp} (hacts : Reliable acts) (hc : Runnable c) (hc2 : Runnable c2) (h : Stripped acts R c r)
    (h2 : Stripped acts R c2 r2) (hr : CircOk r) (hr2 : CircOk r2) (k : ℂ) : EqualUpTo k r r2 ↔ EqualUpTo k c c2 :=
  equalOn_stripped hacts hc hc2 h h2 hr hr2 (fun _ hq => fixed_stripped hc.ok hc2.ok h h2 hr hr2 hq) k

end QCEC.Wide
