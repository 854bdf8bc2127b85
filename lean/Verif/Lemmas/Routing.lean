import Verif.Spec.Routing
import Verif.Lemmas.WideStrip
import Verif.Lemmas.WidePartial
/-!
# Lemmas: compiled circuits
-/
namespace QCEC.Wide
open QCEC QCEC.Prep QCEC.Spec QCEC.Spec.Wide

variable {n : Nat} {D : Nat → Prop} {loc loc' : Nat → Nat}

/-- The first `n` qubits, the others being 0. -/
def cut (n : Nat) (loc : Nat → Nat) (z : Bits) : Bits := fun q => if q < n then z (loc q) else false

open Classical in
/-- The state of the device in which the qubits of the circuit are in state `ψ`. -/
noncomputable def embed (n : Nat) (D : Nat → Prop) (loc : Nat → Nat) (ψ : Bits → ℂ) : Bits → ℂ := fun z =>
  if ∀ p, D p → (∀ q, q < n → loc q ≠ p) → z p = false then ψ (cut n loc z) else 0

/-- The places of the qubits are different. -/
def Apart (n : Nat) (loc : Nat → Nat) : Prop := ∀ q q', q < n → q' < n → loc q = loc q' → q = q'

theorem embed_zero (ψ : Bits → ℂ) : OthersZero n D loc (embed n D loc ψ) := by
  intro z hz p hp hq
  unfold embed at hz
  split at hz
  · rename_i h; exact h p hp hq
  · exact absurd rfl hz

theorem embed_placed (hl : Apart n loc) {s : WSOp} (hs : ∀ p, s.Names p → p < n) (hp : s.Proper) (ψ : Bits → ℂ) :
    (s.placed loc).run (embed n D loc ψ) = embed n D loc (s.run ψ) := by
  classical
  funext z
  cases s with
  | gate g =>
    have ht : ∀ i, g.targets i < n := fun i => hs _ (Or.inl ⟨i, rfl⟩)
    have hinj : Function.Injective (loc ∘ g.targets) := fun i j h => hp.1 (hl _ _ (ht i) (ht j) h)
    have hc : (∀ c ∈ g.controls.map (fun c => (loc c.1, c.2)), z c.1 = c.2) ↔ ∀ c ∈ g.controls, cut n loc z c.1 = c.2 := by
      simp only [List.mem_map, forall_exists_index, and_imp, forall_apply_eq_imp_iff₂]
      refine forall₂_congr fun c hc => ?_
      rw [cut, if_pos (hs _ (Or.inr ⟨c.2, hc⟩))]
    have hx : cut n loc z ∘ g.targets = z ∘ (loc ∘ g.targets) := by
      funext i
      simp only [Function.comp_apply, cut, if_pos (ht i)]
    have he : ∀ y, cut n loc (Function.extend (loc ∘ g.targets) y z) = Function.extend g.targets y (cut n loc z) := by
      intro y
      funext q
      by_cases hq : ∃ i, g.targets i = q
      · obtain ⟨i, rfl⟩ := hq
        rw [hp.1.extend_apply, cut, if_pos (ht i)]
        exact hinj.extend_apply y z i
      · have hq' : ∀ i, g.targets i ≠ q := fun i h => hq ⟨i, h⟩
        rw [extend_off hq']
        unfold cut
        split
        · rename_i hlt
          exact extend_off fun i h => hq' i (hl _ _ (ht i) hlt h)
        · rfl
    have hz : ∀ y, (∀ p, D p → (∀ q, q < n → loc q ≠ p) → Function.extend (loc ∘ g.targets) y z p = false) ↔
        ∀ p, D p → (∀ q, q < n → loc q ≠ p) → z p = false := by
      intro y
      refine forall₃_congr fun p _ hn => ?_
      rw [extend_off (t := loc ∘ g.targets) fun i => hn _ (ht i)]
    simp only [WSOp.placed, WSOp.run, hc, embed, hz, he, hx]
    by_cases h : ∀ p, D p → (∀ q, q < n → loc q ≠ p) → z p = false
    · rw [if_pos h]
      simp only [if_pos h]
    · rw [if_neg h]
      simp only [if_neg h, mul_zero, Finset.sum_const_zero, ite_self]
  | swap a b =>
    have ha : a < n := hs _ (Or.inl rfl)
    have hb : b < n := hs _ (Or.inr rfl)
    simp only [WSOp.placed, WSOp.run, embed]
    have h1 : (∀ p, D p → (∀ q, q < n → loc q ≠ p) → (z ∘ Equiv.swap (loc a) (loc b)) p = false) ↔
        ∀ p, D p → (∀ q, q < n → loc q ≠ p) → z p = false := by
      refine forall₃_congr fun p _ hn => ?_
      rw [Function.comp_apply, Equiv.swap_apply_of_ne_of_ne (Ne.symm (hn a ha)) (Ne.symm (hn b hb))]
    have h2 : cut n loc (z ∘ Equiv.swap (loc a) (loc b)) = cut n loc z ∘ Equiv.swap a b := by
      funext q
      unfold cut
      simp only [Function.comp_apply]
      by_cases hqa : q = a
      · subst hqa; rw [Equiv.swap_apply_left, Equiv.swap_apply_left, if_pos ha, if_pos hb]
      · by_cases hqb : q = b
        · subst hqb; rw [Equiv.swap_apply_right, Equiv.swap_apply_right, if_pos ha, if_pos hb]
        · rw [Equiv.swap_apply_of_ne_of_ne hqa hqb]
          split
          · rename_i hq
            rw [Equiv.swap_apply_of_ne_of_ne (fun h => hqa (hl _ _ hq ha h)) (fun h => hqb (hl _ _ hq hb h))]
          · rfl
    simp only [h1, h2]
  | barrier qs => rfl

theorem embed_swap {a b : Nat} (ha : D a) (hb : D b) (ψ : Bits → ℂ) :
    (WSOp.swap a b).run (embed n D loc ψ) = embed n D (Equiv.swap a b ∘ loc) ψ := by
  classical
  funext z
  simp only [WSOp.run, embed]
  have hD : ∀ p, D (Equiv.swap a b p) ↔ D p := by
    intro p
    by_cases hpa : p = a
    · subst hpa; rw [Equiv.swap_apply_left]; exact ⟨fun _ => ha, fun _ => hb⟩
    · by_cases hpb : p = b
      · subst hpb; rw [Equiv.swap_apply_right]; exact ⟨fun _ => hb, fun _ => ha⟩
      · rw [Equiv.swap_apply_of_ne_of_ne hpa hpb]
  have h1 : (∀ p, D p → (∀ q, q < n → loc q ≠ p) → (z ∘ Equiv.swap a b) p = false) ↔
      ∀ p, D p → (∀ q, q < n → (Equiv.swap a b ∘ loc) q ≠ p) → z p = false := by
    constructor
    · intro h p hp hn
      have := h (Equiv.swap a b p) ((hD p).2 hp) (fun q hq e => hn q hq (by rw [Function.comp_apply, e, Equiv.swap_apply_self]))
      rwa [Function.comp_apply, Equiv.swap_apply_self] at this
    · intro h p hp hn
      exact h (Equiv.swap a b p) ((hD p).2 hp) fun q hq e => hn q hq (Equiv.injective _ e)
  have h2 : cut n loc (z ∘ Equiv.swap a b) = cut n (Equiv.swap a b ∘ loc) z := rfl
  simp only [h1, h2]

theorem effect_append (l l' : List WSOp) (w : Bits → ℂ) : effect (l ++ l') w = effect l' (effect l w) := by
  unfold effect; rw [List.foldl_append]

theorem embed_list (hl : Apart n loc) : ∀ (l : List WSOp), (∀ s ∈ l, ∀ p, s.Names p → p < n) → (∀ s ∈ l, s.Proper) → ∀ ψ,
    effect (l.map (WSOp.placed loc)) (embed n D loc ψ) = embed n D loc (effect l ψ) := by
  intro l
  induction l with
  | nil => intro _ _ ψ; rfl
  | cons s l ih =>
    intro hs hp ψ
    have e := embed_placed (D := D) hl (hs s List.mem_cons_self) (hp s List.mem_cons_self) ψ
    have := ih (fun s h => hs s (List.mem_cons_of_mem _ h)) (fun s h => hp s (List.mem_cons_of_mem _ h)) (s.run ψ)
    unfold effect at *
    rw [List.map_cons, List.foldl_cons, List.foldl_cons, e, this]

/-- The device operations carry out the operations of the circuit. -/
theorem routes_effect {l l' : List WSOp} (h : Routes n D loc l l' loc') : Apart n loc → (∀ q, q < n → D (loc q)) →
    (∀ s ∈ l, ∀ p, s.Names p → p < n) → (∀ s ∈ l, s.Proper) →
    Apart n loc' ∧ (∀ q, q < n → D (loc' q)) ∧ ∀ ψ, effect l' (embed n D loc ψ) = embed n D loc' (effect l ψ) := by
  induction h with
  | done loc => exact fun hl hd _ _ => ⟨hl, hd, fun _ => rfl⟩
  | @swap a b ha hb loc loc' l l' h ih =>
    intro hl hd hs hp
    obtain ⟨i1, i2, i3⟩ := ih (fun q q' a b h => hl q q' a b (Equiv.injective _ h)) (fun q hq => by
      rw [Function.comp_apply]
      by_cases hpa : loc q = a
      · rw [hpa, Equiv.swap_apply_left]; exact hb
      · by_cases hpb : loc q = b
        · rw [hpb, Equiv.swap_apply_right]; exact ha
        · rw [Equiv.swap_apply_of_ne_of_ne hpa hpb]; exact hd q hq) hs hp
    refine ⟨i1, i2, fun ψ => ?_⟩
    rw [← i3 ψ, ← embed_swap ha hb ψ]
    rfl
  | @replace gates block loc loc' l l' hb h ih =>
    intro hl hd hs hp
    obtain ⟨i1, i2, i3⟩ := ih hl hd (fun s h => hs s (List.mem_append_right _ h)) (fun s h => hp s (List.mem_append_right _ h))
    refine ⟨i1, i2, fun ψ => ?_⟩
    rw [effect_append, hb _ (embed_zero ψ), embed_list hl gates (fun s h => hs s (List.mem_append_left _ h))
      (fun s h => hp s (List.mem_append_left _ h)) ψ, i3, effect_append]

/-! ## Labels -/

/-- The labels of the qubits of the device are the numbers below `N`, once each. -/
structure Labelling (D : Nat → Prop) (N : Nat) (σ : Nat → Nat) : Prop where
  range : ∀ p, D p → σ p < N
  inj : ∀ p p', D p → D p' → σ p = σ p' → p = p'
  onto : ∀ q, q < N → ∃ p, D p ∧ σ p = q

theorem labelling_start {c : Circ WOp} (h : CircOk c) : Labelling (Key c) c.nqubits (startLabel c) where
  range p hp := by
    obtain ⟨q, hq⟩ := hp
    rw [startLabel_eq h hq]
    exact (h.onto q).1 ⟨p, hq⟩
  inj p p' hp hp' e := by
    obtain ⟨q, hq⟩ := hp
    obtain ⟨q', hq'⟩ := hp'
    rw [startLabel_eq h hq, startLabel_eq h hq'] at e
    subst e
    exact value_unique h.inj hq hq'
  onto q hq := ⟨carrier c q, ⟨q, carrier_mem h hq⟩, startLabel_eq h (carrier_mem h hq)⟩

theorem labelling_moved {N : Nat} : ∀ (l : List WSOp), (∀ s ∈ l, ∀ p, s.Names p → D p) → ∀ {σ : Nat → Nat}, Labelling D N σ →
    Labelling D N (l.foldl WSOp.moved σ) := by
  intro l
  induction l with
  | nil => intro _ σ h; exact h
  | cons s l ih =>
    intro hs σ h
    rw [List.foldl_cons]
    refine ih (fun s h => hs s (List.mem_cons_of_mem _ h)) ?_
    cases s with
    | gate g => exact h
    | barrier qs => exact h
    | swap a b =>
      have ha : D a := hs _ List.mem_cons_self _ (Or.inl rfl)
      have hb : D b := hs _ List.mem_cons_self _ (Or.inr rfl)
      have hD : ∀ p, D p → D (Equiv.swap a b p) := by
        intro p hp
        by_cases hpa : p = a
        · rw [hpa, Equiv.swap_apply_left]; exact hb
        · by_cases hpb : p = b
          · rw [hpb, Equiv.swap_apply_right]; exact ha
          · rw [Equiv.swap_apply_of_ne_of_ne hpa hpb]; exact hp
      refine ⟨fun p hp => h.range _ (hD p hp), fun p p' hp hp' e => Equiv.injective _ (h.inj _ _ (hD p hp) (hD p' hp') e), fun q hq => ?_⟩
      obtain ⟨p, hp, e⟩ := h.onto q hq
      refine ⟨Equiv.swap a b p, hD p hp, ?_⟩
      rw [WSOp.moved, Function.comp_apply, Equiv.swap_apply_self, e]

theorem labelling_exchange {N : Nat} {σ : Nat → Nat} (h : Labelling D N σ) {p q : Nat} (hp : D p) (hq : q < N) :
    Labelling D N (Equiv.swap (σ p) q ∘ σ) := by
  have hN : ∀ i, i < N → Equiv.swap (σ p) q i < N := by
    intro i hi
    by_cases h1 : i = σ p
    · rw [h1, Equiv.swap_apply_left]; exact hq
    · by_cases h2 : i = q
      · rw [h2, Equiv.swap_apply_right]; exact h.range p hp
      · rw [Equiv.swap_apply_of_ne_of_ne h1 h2]; exact hi
  refine ⟨fun p' hp' => hN _ (h.range p' hp'), fun a b ha hb e => h.inj a b ha hb (Equiv.injective _ e), fun i hi => ?_⟩
  obtain ⟨p', hp', e⟩ := h.onto _ (hN i hi)
  exact ⟨p', hp', by rw [Function.comp_apply, e, Equiv.swap_apply_self]⟩

theorem labelling_settled {N : Nat} : ∀ (out : Layout), (∀ e ∈ out, D e.1 ∧ e.2 < N) → ∀ {σ : Nat → Nat}, Labelling D N σ →
    Labelling D N (settled out σ) := by
  intro out
  induction out with
  | nil => intro _ σ h; exact h
  | cons e out ih =>
    intro hs σ h
    unfold settled at *
    rw [List.foldl_cons]
    exact ih (fun e h => hs e (List.mem_cons_of_mem _ h)) (labelling_exchange h (hs e List.mem_cons_self).1 (hs e List.mem_cons_self).2)

/-- A label that is settled stays. -/
theorem settled_keeps {N : Nat} {p q : Nat} (hp : D p) : ∀ (out : Layout), (∀ e ∈ out, D e.1 ∧ e.2 < N) → (∀ e ∈ out, e.1 ≠ p ∧ e.2 ≠ q) → ∀ {σ : Nat → Nat},
    Labelling D N σ → σ p = q → settled out σ p = q := by
  intro out
  induction out with
  | nil => intro _ _ σ _ h; exact h
  | cons e out ih =>
    intro hs hne σ h hσ
    unfold settled at *
    rw [List.foldl_cons]
    have h0 := hs e List.mem_cons_self
    have n0 := hne e List.mem_cons_self
    refine ih (fun e h => hs e (List.mem_cons_of_mem _ h)) (fun e h => hne e (List.mem_cons_of_mem _ h)) (labelling_exchange h h0.1 h0.2) ?_
    rw [Function.comp_apply, hσ]
    refine Equiv.swap_apply_of_ne_of_ne (fun e' => ?_) (Ne.symm n0.2)
    rw [← hσ] at e'
    exact n0.1 (h.inj _ _ hp h0.1 e').symm

theorem settled_entry {N : Nat} : ∀ (out : Layout), (∀ e ∈ out, D e.1 ∧ e.2 < N) → (out.map Prod.fst).Nodup → (out.map Prod.snd).Nodup → ∀ {σ : Nat → Nat},
    Labelling D N σ → ∀ p q, (p, q) ∈ out → settled out σ p = q := by
  intro out
  induction out with
  | nil => intro _ _ _ σ _ p q h; exact absurd h (by simp)
  | cons e out ih =>
    intro hs k1 k2 σ h p q hpq
    have h0 := hs e List.mem_cons_self
    rw [List.map_cons, List.nodup_cons] at k1 k2
    have hs' : ∀ e ∈ out, D e.1 ∧ e.2 < N := fun e h => hs e (List.mem_cons_of_mem _ h)
    rcases List.mem_cons.1 hpq with e1 | hin
    · subst e1
      show settled out (Equiv.swap (σ p) q ∘ σ) p = q
      refine settled_keeps h0.1 out hs' (fun e he => ⟨?_, ?_⟩) (labelling_exchange h h0.1 h0.2) ?_
      · intro e'; exact k1.1 (List.mem_map.2 ⟨e, he, e'⟩)
      · intro e'; exact k2.1 (List.mem_map.2 ⟨e, he, e'⟩)
      · rw [Function.comp_apply, Equiv.swap_apply_left]
    · exact ih hs' k1.2 k2.2 (labelling_exchange h h0.1 h0.2) p q hin

theorem labelling_end {c : Circ WOp} (h : Runnable c) : Labelling (Key c) c.nqubits (endLabel c) ∧
    ∀ p q, (p, q) ∈ c.outputPermutation → endLabel c p = q := by
  have hm := labelling_moved (c.ops.flatMap WOp.parts) (fun s hs p hn => by
    obtain ⟨o, ho, hs⟩ := List.mem_flatMap.1 hs
    exact h.inside o ho p ⟨s, hs, hn⟩) (labelling_start h.ok)
  have ho : ∀ e ∈ c.outputPermutation, Key c e.1 ∧ e.2 < c.nqubits := fun e he => ⟨h.outInside e.1 e.2 he, h.ok.outRange e.1 e.2 he⟩
  exact ⟨labelling_settled _ ho hm, settled_entry _ ho (Layout.nodup_of_lt h.ok.outKeys) h.ok.outInj hm⟩

/-- **Main lemma**: a compiled circuit does what the original does. -/
theorem compiled_output {c c' : Circ WOp} (hc : Runnable c) (hc' : Runnable c') (h : Compiled c c') {v : Bits → ℂ} (hv : Spec.Wide.Zero (Fixed c c') v)
    (x : Bits) : Spec.Wide.output c v x = Spec.Wide.output c' v x := by
  classical
  obtain ⟨own, readOut, data, wide, loc, loc', hl0, hr, hout⟩ := h
  generalize hn : c.nqubits = n at *
  have keyEq : ∀ p q, (p, q) ∈ c.initialLayout → p = q := by
    intro p q hpq
    have hq : q < n := by rw [← hn]; exact (hc.ok.onto q).1 ⟨p, hpq⟩
    exact value_unique hc.ok.inj hpq (own q hq)
  have car : ∀ q, q < n → carrier c q = q := fun q hq => carrier_eq hc.ok (own q hq)
  have car' : ∀ q, q < n → carrier c' q = loc q := fun q hq => carrier_eq hc'.ok (hl0 q hq)
  have names : ∀ s ∈ c.ops.flatMap WOp.parts, ∀ p, s.Names p → p < n := by
    intro s hs p hp
    obtain ⟨o, ho, hs⟩ := List.mem_flatMap.1 hs
    obtain ⟨q, hq⟩ := hc.inside o ho p ⟨s, hs, hp⟩
    rw [keyEq p q hq, ← hn]
    exact (hc.ok.onto q).1 ⟨p, hq⟩
  have proper : ∀ s ∈ c.ops.flatMap WOp.parts, s.Proper := by
    intro s hs
    obtain ⟨o, ho, hs⟩ := List.mem_flatMap.1 hs
    exact hc.proper o ho s hs
  have apart : Apart n loc := by
    intro q q' hq hq' e
    have a := hl0 q hq
    rw [e] at a
    exact key_unique hc'.ok.keys a (hl0 q' hq')
  obtain ⟨apart', hD', heff⟩ := routes_effect hr apart (fun q hq => ⟨q, hl0 q hq⟩) names proper
  obtain ⟨L, hL⟩ := labelling_end hc
  obtain ⟨L', hL'⟩ := labelling_end hc'
  -- both read out qubit `q` under the same label
  have lab : ∀ q, q < n → endLabel c' (loc' q) = endLabel c q := by
    intro q hq
    obtain ⟨l, hl⟩ := readOut q hq
    rw [hL q l hl, hL' _ _ (hout q l hl)]
  have big : ∀ y, v y ≠ 0 → ∀ q, n ≤ q → y q = false := fun y hy q hq => hv y hy q (Or.inl (hn.symm ▸ hq))
  rw [output_ok hc.ok, output_ok hc'.ok, hn]
  by_cases hx' : ∀ q, c'.nqubits ≤ q → x q = false
  swap
  · -- a qubit neither circuit has is read as 1: both amplitudes vanish
    push Not at hx'
    obtain ⟨q, hq, hxq⟩ := hx'
    have e1 : (fun z : Bits => v fun q => if q < n then z (carrier c q) else x q) = fun _ => 0 := by
      funext z
      by_contra hne
      have := big _ hne q (by omega)
      rw [if_neg (by omega)] at this
      exact hxq this
    have e2 : (fun z : Bits => v fun q => if q < c'.nqubits then z (carrier c' q) else x q) = fun _ => 0 := by
      funext z
      by_contra hne
      have := big _ hne q (by omega)
      rw [if_neg (by omega)] at this
      exact hxq this
    rw [e1, e2, run_zero, run_zero]
  -- the state loaded onto the device
  have e2 : (fun z => v fun q => if q < c'.nqubits then z (carrier c' q) else x q) = embed n (Key c') loc (fun z => v (cut n id z)) := by
    funext z
    unfold embed
    split
    · rename_i hz
      congr 1
      funext q
      unfold cut
      by_cases hq : q < n
      · rw [if_pos (by omega), if_pos hq, car' q hq, id, if_pos hq]
      · rw [if_neg hq]
        split
        · rename_i hq'
          refine hz _ ⟨q, carrier_mem hc'.ok hq'⟩ fun q0 hq0 e => hq ?_
          have a := carrier_mem hc'.ok hq'
          rw [← e] at a
          rw [key_unique hc'.ok.keys a (hl0 q0 hq0)]
          exact hq0
        · exact hx' q (by omega)
    · rename_i hz
      by_contra hne
      refine hz fun p hp hq => ?_
      obtain ⟨q, hpq⟩ := hp
      have hqn : n ≤ q := by
        by_contra hlt
        exact hq q (by omega) (value_unique hc'.ok.inj (hl0 q (by omega)) hpq)
      have := big _ hne q hqn
      rwa [if_pos ((hc'.ok.onto q).1 ⟨p, hpq⟩), carrier_eq hc'.ok hpq] at this
  have r1 : ∀ (ops : List WOp) w, Spec.Wide.run ops w = effect (ops.flatMap WOp.parts) w := fun _ _ => rfl
  have heff' := heff fun z => v (cut n id z)
  change effect _ (embed n (Key c') loc _) = embed n (Key c') loc' _ at heff'
  rw [e2, r1 c'.ops, heff']
  -- the free qubits of the device are read out under the labels the circuit does not have
  have free : (∀ p, Key c' p → (∀ q, q < n → loc' q ≠ p) → (x ∘ endLabel c') p = false) ↔ ∀ q, n ≤ q → x q = false := by
    constructor
    · intro hz q hq
      by_cases hq' : q < c'.nqubits
      · obtain ⟨p, hp, hpq⟩ := L'.onto q hq'
        have := hz p hp (by
          intro i hi e
          have := L.range i ⟨i, own i hi⟩
          rw [← lab i hi, e, hpq, hn] at this
          omega)
        rwa [Function.comp_apply, hpq] at this
      · exact hx' q (by omega)
    · intro hx p hp hq
      refine hx _ ?_
      by_contra hlt
      obtain ⟨i, hi, ei⟩ := L.onto (endLabel c' p) (by rw [hn]; omega)
      obtain ⟨i', hi'⟩ := hi
      have hin : i < n := by
        rw [keyEq _ _ hi', ← hn]
        exact (hc.ok.onto _).1 ⟨i, hi'⟩
      exact hq i hin (L'.inj _ _ (hD' i hin) hp (by rw [lab i hin, ei]))
  unfold embed
  simp only [free]
  by_cases hx : ∀ q, n ≤ q → x q = false
  · have e1 : (fun z => v fun q => if q < n then z (carrier c q) else x q) = fun z => v (cut n id z) := by
      funext z
      congr 1
      funext q
      unfold cut
      split
      · rename_i hq; rw [car q hq]; rfl
      · rename_i hq; exact hx q (by omega)
    rw [if_pos hx, e1, r1]
    refine runS_indep (T := fun p => n ≤ p) _ (fun s hs p hp hnm => absurd (names s hs p hnm) (by omega)) (fun z z' hz => ?_) _ _ ?_
    · congr 1
      funext q
      unfold cut
      split
      · rename_i hq; exact hz q (by omega)
      · rfl
    · intro p hp
      have hp' : p < n := by omega
      unfold cut
      rw [if_pos hp', Function.comp_apply, Function.comp_apply, lab p hp']
  · rw [if_neg hx]
    push Not at hx
    obtain ⟨q, hq, hxq⟩ := hx
    have e1 : (fun z : Bits => v fun q => if q < n then z (carrier c q) else x q) = fun _ => 0 := by
      funext z
      by_contra hne
      have := big _ hne q hq
      rw [if_neg (by omega)] at this
      exact hxq this
    rw [e1, run_zero]

end QCEC.Wide
