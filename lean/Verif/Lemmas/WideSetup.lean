import Verif.Lemmas.WideStrip
import Verif.Lemmas.ZXPerm
/-!
# Lemmas: setting up the ancillary qubits does not change what a circuit does
-/
namespace QCEC.Wide
open QCEC QCEC.Prep QCEC.Spec QCEC.Spec.Wide

/-- What running a circuit needs of its layouts and operations. -/
structure Wired (c : Circ WOp) : Prop where
  keys : (c.initialLayout.map Prod.fst).Nodup
  inj : (c.initialLayout.map Prod.snd).Nodup
  range : ∀ p q, (p, q) ∈ c.initialLayout → q < c.nqubits
  outKeys : (c.outputPermutation.map Prod.fst).Nodup
  outInj : (c.outputPermutation.map Prod.snd).Nodup
  outRange : ∀ p q, (p, q) ∈ c.outputPermutation → ∃ p', (p', q) ∈ c.initialLayout
  proper : ∀ o ∈ c.ops, ∀ s ∈ o.parts, s.Proper
  inside : ∀ o ∈ c.ops, ∀ p, o.Names p → ∃ q, (p, q) ∈ c.initialLayout
  outInside : ∀ p q, (p, q) ∈ c.outputPermutation → ∃ q', (p, q') ∈ c.initialLayout

theorem _root_.QCEC.Spec.Wide.Runnable.wired {c : Circ WOp} (h : Runnable c) : Wired c :=
  ⟨Layout.nodup_of_lt h.ok.keys, h.ok.inj, fun p q hp => (h.ok.onto q).1 ⟨p, hp⟩, Layout.nodup_of_lt h.ok.outKeys, h.ok.outInj,
    fun p q hp => (h.ok.onto q).2 (h.ok.outRange p q hp), h.proper, h.inside, h.outInside⟩

namespace Wired
variable {c : Circ WOp}

theorem carrier_eq (h : Wired c) {p q : Nat} (hp : (p, q) ∈ c.initialLayout) : carrier c q = p := by
  rw [carrier, (Layout.keyOf_iff h.inj).2 hp]; rfl

theorem carrier_mem (h : Wired c) {q : Nat} (hq : ∃ p, (p, q) ∈ c.initialLayout) : (carrier c q, q) ∈ c.initialLayout := by
  obtain ⟨p, hp⟩ := hq
  rw [h.carrier_eq hp]; exact hp

theorem startLabel_eq (h : Wired c) {p q : Nat} (hp : (p, q) ∈ c.initialLayout) : startLabel c p = q := by
  rw [startLabel, (Layout.get_iff h.keys).2 hp]; rfl

end Wired

/-! ## Labels of two circuits that have some wires in common -/

/-- On the wires `K` both labellings agree, with labels below `m`. -/
def Common (K : Nat → Prop) (m : Nat) (σ σ' : Nat → Nat) : Prop := ∀ p, K p → σ p < m ∧ σ' p = σ p

theorem common_ops {K : Nat → Prop} {m : Nat} : ∀ (l : List WSOp), (∀ s ∈ l, ∀ p, s.Names p → K p) → ∀ {σ σ' : Nat → Nat},
    Common K m σ σ' → Common K m (l.foldl WSOp.moved σ) (l.foldl WSOp.moved σ') := by
  intro l
  induction l with
  | nil => intro _ σ σ' h; exact h
  | cons s l ih =>
    intro hl σ σ' h
    refine ih (fun s' hs' => hl s' (List.mem_cons_of_mem _ hs')) ?_
    have hs := hl s List.mem_cons_self
    cases s with
    | gate g => exact h
    | barrier _ => exact h
    | swap a b =>
      intro p hp
      simp only [WSOp.moved, Function.comp_apply]
      refine h _ ?_
      by_cases e1 : p = a
      · subst e1; rw [Equiv.swap_apply_left]; exact hs b (Or.inr rfl)
      · by_cases e2 : p = b
        · subst e2; rw [Equiv.swap_apply_right]; exact hs a (Or.inl rfl)
        · rw [Equiv.swap_apply_of_ne_of_ne e1 e2]; exact hp

theorem common_settle {K : Nat → Prop} {m : Nat} : ∀ (out : Layout), (∀ e ∈ out, K e.1 ∧ e.2 < m) → ∀ {σ σ' : Nat → Nat},
    Common K m σ σ' → Common K m (settled out σ) (settled out σ') := by
  intro out
  induction out with
  | nil => intro _ σ σ' h; exact h
  | cons e out ih =>
    intro hout σ σ' h
    refine ih (fun e h => hout e (List.mem_cons_of_mem _ h)) ?_
    obtain ⟨h1, h2⟩ := hout e List.mem_cons_self
    intro p hp
    simp only [Function.comp_apply]
    rw [(h e.1 h1).2, (h p hp).2]
    refine ⟨?_, rfl⟩
    by_cases e1 : σ p = σ e.1
    · rw [e1, Equiv.swap_apply_left]; exact h2
    · by_cases e2 : σ p = e.2
      · rw [e2, Equiv.swap_apply_right]; exact (h e.1 h1).1
      · rw [Equiv.swap_apply_of_ne_of_ne e1 e2]; exact (h p hp).1

/-- Wires that are not named keep a label that is not used for reading out. -/
theorem spare_ops {p : Nat} : ∀ (l : List WSOp), (∀ s ∈ l, ¬ s.Names p) → ∀ σ : Nat → Nat, l.foldl WSOp.moved σ p = σ p := by
  intro l
  induction l with
  | nil => intro _ σ; rfl
  | cons s l ih =>
    intro hl σ
    rw [List.foldl_cons, ih (fun s' hs' => hl s' (List.mem_cons_of_mem _ hs'))]
    have hs := hl s List.mem_cons_self
    cases s with
    | gate g => rfl
    | barrier _ => rfl
    | swap a b =>
      simp only [WSOp.Names, not_or] at hs
      simp only [WSOp.moved, Function.comp_apply]
      rw [Equiv.swap_apply_of_ne_of_ne (Ne.symm hs.1) (Ne.symm hs.2)]

theorem spare_settle {K : Nat → Prop} {m p : Nat} : ∀ (out : Layout), (∀ e ∈ out, K e.1 ∧ e.2 < m) → ∀ {σ : Nat → Nat},
    (∀ p, K p → σ p < m) → m ≤ σ p → settled out σ p = σ p := by
  intro out
  induction out with
  | nil => intro _ σ _ _; rfl
  | cons e out ih =>
    intro hout σ hK hp
    obtain ⟨h1, h2⟩ := hout e List.mem_cons_self
    have hk := hK e.1 h1
    have e0 : (Equiv.swap (σ e.1) e.2 ∘ σ) p = σ p := by
      simp only [Function.comp_apply]
      exact Equiv.swap_apply_of_ne_of_ne (by omega) (by omega)
    show settled out (Equiv.swap (σ e.1) e.2 ∘ σ) p = σ p
    rw [ih (fun e h => hout e (List.mem_cons_of_mem _ h)) ?_ (by rw [e0]; exact hp), e0]
    intro p2 hp2
    simp only [Function.comp_apply]
    have := hK p2 hp2
    by_cases e1 : σ p2 = σ e.1
    · rw [e1, Equiv.swap_apply_left]; exact h2
    · by_cases e2 : σ p2 = e.2
      · rw [e2, Equiv.swap_apply_right]; exact hk
      · rw [Equiv.swap_apply_of_ne_of_ne e1 e2]; exact this

/-! ## The padded circuit -/

variable {n : Nat} {c c' : Circ WOp}

theorem wired_padded (hn : c.nqubits ≤ n) (hc : Wired c) (h : Padded n c c') : Wired c' where
  keys := Layout.nodup_of_lt h.keys
  inj := by
    refine QCEC.ZX.nodup_of_inj h.keys ?_
    intro a b v ha hb
    rw [h.initial] at ha hb
    rcases ha with ha | ⟨ha, ha2, _⟩ <;> rcases hb with hb | ⟨hb, hb2, _⟩
    · exact Layout.value_inj hc.inj ha hb
    · have := hc.range _ _ ha; omega
    · have := hc.range _ _ hb; omega
    · omega
  range := by
    intro p q hp
    rw [h.initial] at hp
    rw [h.width]
    rcases hp with hp | hp
    · have := hc.range _ _ hp; omega
    · omega
  outKeys := by rw [h.output]; exact hc.outKeys
  outInj := by rw [h.output]; exact hc.outInj
  outRange := by
    rw [h.output]
    intro p q hp
    obtain ⟨p', hp'⟩ := hc.outRange p q hp
    exact ⟨p', (h.initial _ _).2 (Or.inl hp')⟩
  proper := by rw [h.ops]; exact hc.proper
  inside := by
    rw [h.ops]
    intro o ho p hn
    obtain ⟨q, hq⟩ := hc.inside o ho p hn
    exact ⟨q, (h.initial _ _).2 (Or.inl hq)⟩
  outInside := by
    rw [h.output]
    intro p q hp
    obtain ⟨q', hq'⟩ := hc.outInside p q hp
    exact ⟨q', (h.initial _ _).2 (Or.inl hq')⟩

/-- **Padding does not change the output.** -/
theorem output_padded (hn : c.nqubits ≤ n) (hc : Wired c) (h : Padded n c c') (v : Bits → ℂ) (x : Bits) :
    Wide.output c' v x = Wide.output c v x := by
  have hc' := wired_padded hn hc h
  have hnames : ∀ s ∈ c.ops.flatMap WOp.parts, ∀ p, s.Names p → ∃ q, (p, q) ∈ c.initialLayout := by
    intro s hs p hp
    obtain ⟨o, ho, hso⟩ := List.mem_flatMap.1 hs
    exact hc.inside o ho p ⟨s, hso, hp⟩
  have hold : ∀ p q, (p, q) ∈ c.initialLayout → (p, q) ∈ c'.initialLayout := fun p q hp => (h.initial _ _).2 (Or.inl hp)
  have hcom0 : Common (fun p => ∃ q, (p, q) ∈ c.initialLayout) c.nqubits (startLabel c) (startLabel c') := by
    rintro p ⟨q, hp⟩
    rw [hc.startLabel_eq hp, hc'.startLabel_eq (hold _ _ hp)]
    exact ⟨hc.range _ _ hp, rfl⟩
  have hcomm1 := common_ops _ hnames hcom0
  have hentries : ∀ e ∈ c.outputPermutation, (∃ q, (e.1, q) ∈ c.initialLayout) ∧ e.2 < c.nqubits := by
    intro e he
    obtain ⟨p', hp'⟩ := hc.outRange e.1 e.2 he
    exact ⟨hc.outInside e.1 e.2 he, hc.range _ _ hp'⟩
  have hcom : Common (fun p => ∃ q, (p, q) ∈ c.initialLayout) c.nqubits (endLabel c) (endLabel c') := by
    unfold endLabel
    rw [h.ops, h.output]
    exact common_settle _ hentries hcomm1
  have hspare : ∀ p, (p, p) ∈ c'.initialLayout → c.nqubits ≤ p → (∀ q, (p, q) ∉ c.initialLayout) → endLabel c' p = p := by
    intro p h0 h1 h2
    have hnot : ∀ s ∈ c.ops.flatMap WOp.parts, ¬ s.Names p := by
      intro s hs hp
      obtain ⟨q, hq⟩ := hnames s hs p hp
      exact h2 q hq
    unfold endLabel
    rw [h.ops, h.output]
    have e1 := spare_ops _ hnot (startLabel c')
    have e2 := hc'.startLabel_eq h0
    rw [spare_settle (K := fun p => ∃ q, (p, q) ∈ c.initialLayout) (m := c.nqubits) _ hentries, e1, e2]
    · intro p hp
      rw [(hcomm1 p hp).2]
      exact (hcomm1 p hp).1
    · rw [e1, e2]; exact h1
  classical
  unfold Wide.output run
  rw [h.ops]
  -- new wires keep their value
  have e1 : (c.ops.flatMap WOp.parts).foldl (fun w s => s.run w) (fun z => v fun q => if ∃ p, (p, q) ∈ c'.initialLayout then z (carrier c' q) else x q) (x ∘ endLabel c') =
      (c.ops.flatMap WOp.parts).foldl (fun w s => s.run w) (fun z => v fun q => if ∃ p, (p, q) ∈ c.initialLayout then z (carrier c q) else x q) (x ∘ endLabel c') := by
    refine runS_congr (T := fun p => ∀ q, (p, q) ∉ c.initialLayout) _ ?_ (z0 := x ∘ endLabel c') ?_ _ (fun _ _ => rfl)
    · rintro s hs p h1 hp
      obtain ⟨q, hq⟩ := hnames s hs p hp
      exact h1 q hq
    · intro z hz
      congr 1
      funext q
      by_cases h1 : ∃ p, (p, q) ∈ c.initialLayout
      · have hm := hold _ _ (hc.carrier_mem h1)
        rw [if_pos ⟨_, hm⟩, if_pos h1, hc'.carrier_eq hm]
      · rw [if_neg h1]
        split
        · rename_i h2
          obtain ⟨p, hp⟩ := h2
          rcases (h.initial _ _).1 hp with hp' | ⟨e, h3, h4, h5⟩
          · exact absurd ⟨p, hp'⟩ h1
          · subst e
            rw [hc'.carrier_eq hp, hz q h5, Function.comp_apply, hspare q hp h3 h5]
        · rfl
  refine (Eq.trans (by congr!) e1).trans ?_
  refine Eq.trans ?_ (by congr!)
  refine runS_indep (T := fun p => ¬ ∃ q, (p, q) ∈ c.initialLayout) _ ?_ ?_ _ _ ?_
  · intro s hs p hp hn
    exact hp (hnames s hs p hn)
  · intro z z' hz
    congr 1
    funext q
    split
    · rename_i hq
      exact hz _ (not_not_intro ⟨q, hc.carrier_mem hq⟩)
    · rfl
  · intro p hp
    simp only [Function.comp_apply]
    rw [(hcom p (not_not.1 hp)).2]

/-! ## The larger circuit -/

theorem output_marked {m : Nat} (h : SurplusMarked m c c') (v : Bits → ℂ) (x : Bits) : Wide.output c' v x = Wide.output c v x := by
  have hl : endLabel c' = endLabel c := by
    unfold endLabel
    have : startLabel c' = startLabel c := by
      funext p
      rw [startLabel, startLabel, h.initial, h.width]
    rw [h.output, h.ops, this]
  have hk : carrier c' = carrier c := by
    funext q
    rw [carrier, carrier, h.initial]
  unfold Wide.output
  rw [h.ops, h.initial, hl, hk]

theorem wired_marked {m : Nat} (hc : Wired c) (h : SurplusMarked m c c') : Wired c' where
  keys := by rw [h.initial]; exact hc.keys
  inj := by rw [h.initial]; exact hc.inj
  range := by rw [h.initial, h.width]; exact hc.range
  outKeys := by rw [h.output]; exact hc.outKeys
  outInj := by rw [h.output]; exact hc.outInj
  outRange := by rw [h.output, h.initial]; exact hc.outRange
  proper := by rw [h.ops]; exact hc.proper
  inside := by rw [h.ops, h.initial]; exact hc.inside
  outInside := by rw [h.output, h.initial]; exact hc.outInside

end QCEC.Wide
