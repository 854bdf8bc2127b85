import Verif.Model.Memory
/-!
# Lemmas on reference counts
-/
namespace QCEC.Mem

/-- No fault so far; the references are those of `base` and one for every diagram of `l`; what is referenced is alive. -/
structure Inv (base : Nat → Nat) (l : List Dd) (h : Heap) : Prop where
  fault : h.fault = false
  refs : ∀ a, h.refs a = base a + l.count (.node a)
  live : ∀ a, 0 < h.refs a → h.live a = true
  fresh : ∀ a, h.live a = true → a < h.next

variable {base : Nat → Nat} {l : List Dd} {h : Heap} {L : Lib} {d : Dd}

theorem Inv.perm {l' : List Dd} (i : Inv base l h) (p : l.Perm l') : Inv base l' h :=
  ⟨i.fault, fun a => by rw [i.refs a, p.count_eq], i.live, i.fresh⟩

theorem Inv.ok (i : Inv base l h) (hd : d ∈ l) : h.ok d = true := by
  cases d with
  | fixed => rfl
  | node a => exact i.live a (by rw [i.refs a]; have := List.count_pos_iff.2 hd; omega)

theorem Inv.use (i : Inv base l h) (hd : h.ok d = true) : Inv base l (h.use d) :=
  ⟨by simp [Heap.use, i.fault, hd], i.refs, i.live, i.fresh⟩

theorem ok_use (h : Heap) (d e : Dd) : (h.use d).ok e = h.ok e := by cases e <;> rfl

theorem Inv.result (i : Inv base l h) : Inv base l (h.result L).1 ∧ (h.result L).1.ok (h.result L).2 = true := by
  unfold Heap.result
  split
  · exact ⟨⟨i.fault, i.refs, i.live, i.fresh⟩, rfl⟩
  · split
    · rename_i a _ ha
      exact ⟨⟨i.fault, i.refs, i.live, i.fresh⟩, ha⟩
    · refine ⟨⟨i.fault, i.refs, fun a ha => by simp [i.live a ha], fun a ha => ?_⟩, by simp [Heap.ok]⟩
      simp only [Bool.or_eq_true, decide_eq_true_eq] at ha
      rcases ha with e | e
      · show a < h.next + 1; omega
      · have := i.fresh a e; show a < h.next + 1; omega

/-- A result frees nothing. -/
theorem ok_result (e : Dd) (he : h.ok e = true) : (h.result L).1.ok e = true := by
  unfold Heap.result
  split
  · cases e <;> simpa [Heap.ok] using he
  · split
    · cases e <;> simpa [Heap.ok] using he
    · cases e with
      | fixed => rfl
      | node a => simp only [Heap.ok] at he; simp [Heap.ok, he]

theorem ok_incRef (h : Heap) (d e : Dd) : (h.incRef d).ok e = h.ok e := by cases d <;> cases e <;> rfl
theorem ok_decRef (h : Heap) (d e : Dd) : (h.decRef d).ok e = h.ok e := by cases d <;> cases e <;> rfl

theorem Inv.multiply {x y : Dd} (i : Inv base l h) (hx : h.ok x = true) (hy : h.ok y = true) :
    Inv base l (h.multiply L x y).1 ∧ (h.multiply L x y).1.ok (h.multiply L x y).2 = true :=
  ((i.use hx).use (by rw [ok_use]; exact hy)).result

theorem ok_multiply {x y : Dd} (e : Dd) (he : h.ok e = true) : (h.multiply L x y).1.ok e = true :=
  ok_result e (by rw [ok_use, ok_use]; exact he)

theorem Inv.incRef (i : Inv base l h) (hd : h.ok d = true) : Inv base (d :: l) (h.incRef d) := by
  cases d with
  | fixed => exact ⟨i.fault, fun a => by rw [show (h.incRef .fixed).refs a = h.refs a from rfl, i.refs a]; simp, i.live, i.fresh⟩
  | node a =>
    refine ⟨(i.use hd).fault, fun b => ?_, fun b hb => ?_, i.fresh⟩
    · simp only [Heap.incRef]
      rw [i.refs b]
      by_cases e : b = a
      · subst e; simp; omega
      · rw [if_neg e, List.count_cons_of_ne (fun q => e (by injection q with q; exact q.symm))]
    · simp only [Heap.incRef] at hb
      by_cases e : b = a
      · subst e; exact hd
      · rw [if_neg e] at hb; exact i.live b hb

theorem Inv.decRef (i : Inv base (d :: l) h) : Inv base l (h.decRef d) := by
  have hd := i.ok (List.mem_cons_self : d ∈ d :: l)
  cases d with
  | fixed => exact ⟨i.fault, fun a => by rw [show (h.decRef .fixed).refs a = h.refs a from rfl, i.refs a]; simp, i.live, i.fresh⟩
  | node a =>
    have ha := i.refs a
    simp only [List.count_cons_self] at ha
    refine ⟨?_, fun b => ?_, fun b hb => ?_, i.fresh⟩
    · have := (i.use hd).fault
      simp only [Heap.decRef, this, Bool.false_or, decide_eq_false_iff_not]
      omega
    · simp only [Heap.decRef]
      by_cases e : b = a
      · subst e; rw [if_pos rfl]; omega
      · rw [if_neg e, i.refs b, List.count_cons_of_ne (fun q => e (by injection q with q; exact q.symm))]
    · simp only [Heap.decRef] at hb
      split at hb
      · exact i.live b (by omega)
      · exact i.live b hb

theorem Inv.collect (i : Inv base l h) : Inv base l (h.collect L) := by
  refine ⟨i.fault, i.refs, fun a ha => ?_, fun a ha => ?_⟩
  · have h1 : 0 < h.refs a := ha
    have h2 := i.live a h1
    simp only [Heap.collect, h2, Bool.true_and, Bool.not_eq_true', Bool.and_eq_false_iff, decide_eq_false_iff_not]
    left; omega
  · simp only [Heap.collect, Bool.and_eq_true] at ha
    exact i.fresh a ha.1

theorem Inv.step (i : Inv base (d :: l) h) : Inv base ((step L h d).2 :: l) (step L h d).1 := by
  have hd := i.ok (List.mem_cons_self : d ∈ d :: l)
  have m := i.result (L := L)
  have hd' := ok_result (L := L) d hd
  have r := m.1.multiply (L := L) m.2 hd'
  have k := r.1.incRef r.2
  exact ((k.perm (List.Perm.swap ..)).decRef).collect

theorem Inv.steps (k : Nat) (i : Inv base (d :: l) h) : Inv base ((steps L k h d).2 :: l) (steps L k h d).1 := by
  induction k generalizing h d with
  | zero => exact i
  | succ k ih => exact ih i.step

theorem Inv.changePerm (i : Inv base (d :: l) h) : Inv base ((changePerm L h d).2 :: l) (changePerm L h d).1 := i.steps _

theorem Inv.reduceGarbage (i : Inv base (d :: l) h) : Inv base ((reduceGarbage L h d).2 :: l) (reduceGarbage L h d).1 := by
  have hd := i.ok (List.mem_cons_self : d ∈ d :: l)
  unfold Mem.reduceGarbage
  split
  · have r := (i.use hd).result (L := L)
    exact ((r.1.incRef r.2).perm (List.Perm.swap ..)).decRef
  · exact i.use hd

/-- Reducing ancillaries may leave a reference behind. -/
theorem Inv.reduceAncillae (i : Inv base (d :: l) h) :
    ∃ base', (∀ a, base a ≤ base' a) ∧ Inv base' ((reduceAncillae L h d).2 :: l) (reduceAncillae L h d).1 := by
  have hd := i.ok (List.mem_cons_self : d ∈ d :: l)
  unfold Mem.reduceAncillae
  split
  · have r := (i.use hd).result (L := L)
    have k := r.1.incRef r.2
    simp only
    split
    · refine ⟨fun a => base a + [d].count (.node a), fun a => Nat.le_add_right _ _, k.fault, fun a => ?_, k.live, k.fresh⟩
      rw [k.refs a]
      simp only [List.count_cons, List.count_nil]
      omega
    · exact ⟨base, fun _ => Nat.le_refl _, (k.perm (List.Perm.swap ..)).decRef⟩
  · exact ⟨base, fun _ => Nat.le_refl _, i.use hd⟩

/-- On the identity nothing is left behind. -/
theorem Inv.reduceIdentity (i : Inv base l h) : Inv base ((Mem.reduceAncillae L h .fixed).2 :: l) (Mem.reduceAncillae L h .fixed).1 := by
  have i' : Inv base (.fixed :: l) h := i.incRef rfl
  unfold Mem.reduceAncillae
  split
  · have r := (i.use (d := .fixed) rfl).result (L := L)
    have k := r.1.incRef r.2
    simp only
    split
    · exact k
    · exact k
  · exact i'.use (d := .fixed) rfl

section
variable {α : Type} {isSwap : α → Bool}

theorem Inv.applySwaps (ops : List α) (i : Inv base (d :: l) h) :
    Inv base ((applySwaps L isSwap ops h d).2.1 :: l) (applySwaps L isSwap ops h d).1 := by
  induction ops generalizing h d with
  | nil => exact i
  | cons op r ih =>
    unfold Mem.applySwaps
    split
    · exact ih i.step
    · exact i

theorem Inv.advance (k : Nat) (ops : List α) (i : Inv base (d :: l) h) :
    Inv base ((advance L isSwap k ops h d).2.1 :: l) (advance L isSwap k ops h d).1 := by
  induction k generalizing h d ops with
  | zero => exact i
  | succ k ih =>
    cases ops with
    | nil => exact i
    | cons op r => exact ih _ (i.step.applySwaps (isSwap := isSwap) r)

theorem Inv.finish (ops : List α) (i : Inv base (d :: l) h) : Inv base ((finish L ops h d).2 :: l) (finish L ops h d).1 := i.steps _

/-- Invariant of a check with two diagrams. -/
def InvTwo (base : Nat → Nat) (s : Two α) : Prop := Inv base [s.d1, s.d2] s.h

theorem Inv.swap2 {e : Dd} (i : Inv base [d, e] h) : Inv base [e, d] h := i.perm (List.Perm.swap ..)

theorem invTwo_execute (c : Ctl α) (fuel : Nat) (s : Two α) (i : InvTwo base s) : InvTwo base (executeTwo L c fuel s) := by
  induction fuel generalizing s with
  | zero => exact i
  | succ fuel ih =>
    unfold executeTwo
    split
    · exact i
    · split
      · exact i
      · have i1 := Inv.applySwaps (L := L) (isSwap := c.isSwap) s.l1 i
        have i2 := (Inv.applySwaps (L := L) (isSwap := c.isSwap) s.l2 i1.swap2).swap2
        simp only
        split
        · exact ih _ i2
        · split
          · exact ih _ i2
          · apply ih
            unfold InvTwo
            simp only
            split
            · split
              · exact i2
              · exact (Inv.advance _ _ i2.swap2).swap2
            · split
              · exact Inv.advance _ _ i2
              · exact (Inv.advance _ _ (Inv.advance _ _ i2).swap2).swap2

theorem invTwo_finish (c : Ctl α) (s : Two α) (i : InvTwo base s) : InvTwo base (finishTwo L c s) := by
  unfold finishTwo InvTwo
  simp only
  split
  · split
    · exact i
    · exact (Inv.finish _ i.swap2).swap2
  · split
    · exact Inv.finish _ i
    · exact (Inv.finish _ (Inv.finish _ i).swap2).swap2

theorem Inv.postprocessVector (c : Ctl α) (partialEq : Bool) (n : Nat) (i : Inv base (d :: l) h) :
    Inv base ((postprocessTask L c false partialEq h d n).2.1 :: l) (postprocessTask L c false partialEq h d n).1 := by
  have i1 := i.changePerm (L := L)
  unfold postprocessTask
  simp only [Bool.false_eq_true, if_false]
  split
  · exact i1
  · split
    · exact i1
    · split
      · exact i1.reduceGarbage
      · exact i1

theorem Inv.postprocessMatrix (c : Ctl α) (partialEq : Bool) (n : Nat) (i : Inv base (d :: l) h) :
    ∃ base', (∀ a, base a ≤ base' a) ∧
      Inv base' ((postprocessTask L c true partialEq h d n).2.1 :: l) (postprocessTask L c true partialEq h d n).1 := by
  have i1 := i.changePerm (L := L)
  unfold postprocessTask
  simp only [if_true]
  split
  · exact ⟨base, fun _ => Nat.le_refl _, i1⟩
  · obtain ⟨base', hb, i2⟩ := i1.reduceAncillae (L := L)
    refine ⟨base', hb, ?_⟩
    split
    · exact i2
    · split
      · exact i2.reduceGarbage
      · exact i2

theorem invTwo_postprocessVector (c : Ctl α) (partialEq : Bool) (s : Two α) (i : InvTwo base s) :
    InvTwo base (postprocessTwo L c false partialEq s) := by
  unfold postprocessTwo InvTwo
  simp only
  have key : ∀ (h : Heap) (d1 d2 : Dd) (n : Nat), Inv base [d1, d2] h →
      Inv base [d1, (if c.stop n = true then (h, d2, n + 1) else postprocessTask L c false partialEq h d2 (n + 1)).2.1]
        (if c.stop n = true then (h, d2, n + 1) else postprocessTask L c false partialEq h d2 (n + 1)).1 := by
    intro h d1 d2 n i
    split
    · exact i
    · exact (Inv.postprocessVector c partialEq _ i.swap2).swap2
  split
  · exact key _ _ _ _ i
  · exact key _ _ _ _ (Inv.postprocessVector c partialEq _ i)

theorem invTwo_postprocessMatrix (c : Ctl α) (partialEq : Bool) (s : Two α) (i : InvTwo base s) :
    ∃ base', (∀ a, base a ≤ base' a) ∧ InvTwo base' (postprocessTwo L c true partialEq s) := by
  unfold postprocessTwo InvTwo
  simp only
  have key : ∀ (b : Nat → Nat) (h : Heap) (d1 d2 : Dd) (n : Nat), Inv b [d1, d2] h → ∃ b', (∀ a, b a ≤ b' a) ∧
      Inv b' [d1, (if c.stop n = true then (h, d2, n + 1) else postprocessTask L c true partialEq h d2 (n + 1)).2.1]
        (if c.stop n = true then (h, d2, n + 1) else postprocessTask L c true partialEq h d2 (n + 1)).1 := by
    intro b h d1 d2 n i
    split
    · exact ⟨b, fun _ => Nat.le_refl _, i⟩
    · obtain ⟨b', hb, i'⟩ := Inv.postprocessMatrix (L := L) c partialEq (n + 1) i.swap2
      exact ⟨b', hb, i'.swap2⟩
  split
  · exact key _ _ _ _ _ i
  · obtain ⟨b1, hb1, i1⟩ := Inv.postprocessMatrix (L := L) c partialEq (s.polls + 1) i
    obtain ⟨b2, hb2, i2⟩ := key _ _ _ _ (postprocessTask L c true partialEq s.h s.d1 (s.polls + 1)).2.2 i1
    exact ⟨b2, fun a => Nat.le_trans (hb1 a) (hb2 a), i2⟩

theorem Inv.equals {d1 d2 : Dd} (i : Inv base l h) (h1 : h.ok d1 = true) (h2 : h.ok d2 = true) :
    Inv base l (equals L h d1 d2) ∧ ∀ e, h.ok e = true → (equals L h d1 d2).ok e = true := by
  have hk : ∀ e, h.ok e = true → ((((h.use d1).use d2).use d2).result L).1.ok e = true := fun e he =>
    ok_result e (by simpa only [ok_use] using he)
  have r := (((i.use h1).use (d := d2) (by simpa only [ok_use] using h2)).use (d := d2) (by simpa only [ok_use] using h2)).result (L := L)
  have m := r.1.multiply (L := L) (hk d1 h1) r.2
  exact ⟨m.1, fun e he => ok_multiply e (hk e he)⟩

/-- A simulation keeps its references only if it is stopped. -/
theorem Inv.runSimulation (c : Ctl α) (partialEq : Bool) (ops1 ops2 : List α) (fuel : Nat) {init : Dd} (i : Inv base [] h)
    (hi : h.ok init = true) :
    ((runSimulation L c partialEq ops1 ops2 fuel h init).2 = true → Inv base [] (runSimulation L c partialEq ops1 ops2 fuel h init).1) ∧
    ((runSimulation L c partialEq ops1 ops2 fuel h init).2 = false →
      ∃ d1 d2, Inv base [d1, d2] (runSimulation L c partialEq ops1 ops2 fuel h init).1) := by
  have i1 := i.incRef hi
  have i2 := i1.incRef (d := init) (by rw [ok_incRef]; exact hi)
  have e := invTwo_execute (L := L) c fuel { h := (h.incRef init).incRef init, d1 := init, l1 := ops1, d2 := init, l2 := ops2, polls := 0 } i2
  have f := invTwo_postprocessVector (L := L) c partialEq _ (invTwo_finish (L := L) c _ e)
  unfold Mem.runSimulation
  simp only
  split
  · exact ⟨fun q => by simp at q, fun _ => ⟨_, _, f⟩⟩
  · refine ⟨fun _ => ?_, fun q => by simp at q⟩
    have g := (Inv.equals (L := L) f (f.ok (List.mem_cons_self ..)) (f.ok (List.mem_cons_of_mem _ (List.mem_cons_self ..)))).1
    exact g.decRef.decRef

/-- A construction check keeps references, but does nothing wrong. -/
theorem Inv.runConstruction (c : Ctl α) (partialEq : Bool) (ops1 ops2 : List α) (fuel : Nat) (i : Inv base [] h) :
    ∃ base', Inv base' [] (runConstruction L c partialEq ops1 ops2 fuel h) := by
  have i1 := i.reduceIdentity (L := L)
  have i2 := (i1.reduceIdentity (L := L)).swap2
  have e := invTwo_finish (L := L) c _ (invTwo_execute (L := L) c fuel
    { h := (Mem.reduceAncillae L (Mem.reduceAncillae L h .fixed).1 .fixed).1, d1 := (Mem.reduceAncillae L h .fixed).2, l1 := ops1
      d2 := (Mem.reduceAncillae L (Mem.reduceAncillae L h .fixed).1 .fixed).2, l2 := ops2, polls := 0 } i2)
  obtain ⟨b, _, f⟩ := invTwo_postprocessMatrix (L := L) c partialEq _ e
  have drop : ∀ {b : Nat → Nat} {l : List Dd} {h : Heap}, Inv b l h → ∃ b', Inv b' [] h := fun {b l h} i =>
    ⟨fun a => b a + l.count (.node a), i.fault, fun a => by rw [i.refs a]; simp, i.live, i.fresh⟩
  have key : ∀ (b : Nat → Nat) (s : Two α), InvTwo b s → ∃ b', Inv b' [] (if c.stop s.polls = true then s.h else Mem.equals L s.h s.d1 s.d2) := by
    intro b s f
    split
    · exact drop f
    · exact drop (Inv.equals (L := L) f (f.ok (List.mem_cons_self ..)) (f.ok (List.mem_cons_of_mem _ (List.mem_cons_self ..)))).1
  exact key b _ f

theorem Inv.addLevels (k : Nat) (i : Inv base l h) (hd : h.ok d = true) :
    Inv base l (addLevels L k h d).1 ∧ (addLevels L k h d).1.ok (addLevels L k h d).2 = true := by
  induction k generalizing h d with
  | zero => exact ⟨i, hd⟩
  | succ k ih =>
    have r := (i.use hd).result (L := L)
    exact ih r.1 r.2

/-- A stimulus is alive when it is returned, and holds no reference. -/
theorem Inv.stimulus (t : StateType) (anc : Nat) (i : Inv base l h) :
    Inv base l (stimulus L t anc h).1 ∧ (stimulus L t anc h).1.ok (stimulus L t anc h).2 = true := by
  unfold Mem.stimulus
  split
  · have z := i.result (L := L)
    have s := ((z.1.incRef z.2).steps (L := L) (L.gates (h.result L).1.calls)).changePerm (L := L)
    have ok := s.ok (List.mem_cons_self ..)
    exact Inv.addLevels _ s.decRef (by rw [ok_decRef]; exact ok)
  · exact i.result

theorem inv_simulations (partialEq : Bool) (ops1 ops2 : List α) (anc : Nat) (sims : List (Sim α)) (i : Inv base [] h) :
    ∃ left : List Dd, left.length = 2 * (simulations L partialEq ops1 ops2 anc sims h).2 ∧
      Inv base left (simulations L partialEq ops1 ops2 anc sims h).1 := by
  induction sims generalizing base h with
  | nil => exact ⟨[], rfl, i⟩
  | cons s sims ih =>
    have st := i.stimulus (L := L) s.type anc
    have r := st.1.runSimulation (L := L) s.ctl partialEq ops1 ops2 s.fuel st.2
    unfold simulations
    simp only
    cases hr : (Mem.runSimulation L s.ctl partialEq ops1 ops2 s.fuel (Mem.stimulus L s.type anc h).1 (Mem.stimulus L s.type anc h).2).2 with
    | true =>
      obtain ⟨left, hl, il⟩ := ih (r.1 hr)
      exact ⟨left, by simpa using hl, il⟩
    | false =>
      obtain ⟨d1, d2, q⟩ := r.2 hr
      have q' : Inv (fun a => base a + [d1, d2].count (.node a)) []
          (Mem.runSimulation L s.ctl partialEq ops1 ops2 s.fuel (Mem.stimulus L s.type anc h).1 (Mem.stimulus L s.type anc h).2).1 :=
        ⟨q.fault, fun a => by rw [q.refs a]; simp, q.live, q.fresh⟩
      obtain ⟨left, hl, il⟩ := ih q'
      refine ⟨left ++ [d1, d2], by simp [hl]; omega, il.fault, fun a => ?_, il.live, il.fresh⟩
      rw [il.refs a, List.count_append]; omega

/-- What the alternating checker holds. -/
def held (s : Alt α) : List Dd := s.op1.toList ++ s.op2.toList

theorem Inv.cache (op : Option Dd) (i : Inv base (op.toList ++ l) h) :
    Inv base ((cache L h op).2 :: l) (cache L h op).1 := by
  cases op with
  | some m => exact i
  | none =>
    have r := i.result (L := L)
    exact r.1.incRef r.2

theorem inv_lookahead (c : AltCtl α) (s : Alt α) (i : Inv base (s.d :: held s) s.h) :
    Inv base ((lookaheadStep L c s).d :: held (lookaheadStep L c s)) (lookaheadStep L c s).h := by
  have i0 : Inv base (s.op1.toList ++ (s.op2.toList ++ [s.d])) s.h := i.perm (by
    rw [← List.append_assoc]
    exact (List.perm_append_singleton s.d (held s)).symm)
  have i1 := i0.cache (L := L)
  have i2 := (i1.perm ((List.perm_middle (l₁ := s.op2.toList) (l₂ := [s.d]) (a := (Mem.cache L s.h s.op1).2)).symm)).cache (L := L)
  -- m2, m1, d
  have ok1 := i2.ok (d := (Mem.cache L s.h s.op1).2) (by simp)
  have ok2 := i2.ok (List.mem_cons_self ..)
  have okd := i2.ok (d := s.d) (by simp)
  have a := i2.multiply (L := L) ok1 okd
  have b := (a.1.use a.2).multiply (L := L) (x := s.d) (y := (Mem.cache L (Mem.cache L s.h s.op1).1 s.op2).2)
    (by rw [ok_use]; exact ok_multiply _ okd) (by rw [ok_use]; exact ok_multiply _ ok2)
  have ha : (((((Mem.cache L (Mem.cache L s.h s.op1).1 s.op2).1.multiply L (Mem.cache L s.h s.op1).2 s.d).1.use
      ((Mem.cache L (Mem.cache L s.h s.op1).1 s.op2).1.multiply L (Mem.cache L s.h s.op1).2 s.d).2).multiply L s.d
      (Mem.cache L (Mem.cache L s.h s.op1).1 s.op2).2).1.ok
      ((Mem.cache L (Mem.cache L s.h s.op1).1 s.op2).1.multiply L (Mem.cache L s.h s.op1).2 s.d).2) = true :=
    ok_multiply _ (by rw [ok_use]; exact a.2)
  have u := b.1.use b.2
  unfold lookaheadStep
  simp only
  split
  · have k := (u.perm (List.Perm.swap ..)).decRef
    have k2 := k.incRef (d := ((Mem.cache L (Mem.cache L s.h s.op1).1 s.op2).1.multiply L (Mem.cache L s.h s.op1).2 s.d).2)
      (by rw [ok_decRef, ok_use]; exact ha)
    -- dd1, m2, d
    have k3 := k2.perm (l' := [s.d, ((Mem.cache L (Mem.cache L s.h s.op1).1 s.op2).1.multiply L (Mem.cache L s.h s.op1).2 s.d).2,
      (Mem.cache L (Mem.cache L s.h s.op1).1 s.op2).2])
      (((List.Perm.swap _ _ _).cons _).trans (List.Perm.swap _ _ _))
    exact k3.decRef.collect
  · have k := u.decRef
    have k2 := k.incRef (d := ((((Mem.cache L (Mem.cache L s.h s.op1).1 s.op2).1.multiply L (Mem.cache L s.h s.op1).2 s.d).1.use
      ((Mem.cache L (Mem.cache L s.h s.op1).1 s.op2).1.multiply L (Mem.cache L s.h s.op1).2 s.d).2).multiply L s.d
      (Mem.cache L (Mem.cache L s.h s.op1).1 s.op2).2).2) (by rw [ok_decRef, ok_use]; exact b.2)
    have k3 := k2.perm (((List.Perm.swap _ _ _).cons _).trans (List.Perm.swap _ _ _))
    exact k3.decRef.collect

theorem inv_executeAlt (c : AltCtl α) (fuel : Nat) (s : Alt α) (i : Inv base (s.d :: held s) s.h) :
    Inv base ((executeAlt L c fuel s).d :: held (executeAlt L c fuel s)) (executeAlt L c fuel s).h := by
  induction fuel generalizing s with
  | zero => exact i
  | succ fuel ih =>
    unfold executeAlt
    split
    · exact i
    · split
      · exact i
      · have i1 := Inv.applySwaps (L := L) (isSwap := c.isSwap) s.l1 i
        have i2 := Inv.applySwaps (L := L) (isSwap := c.isSwap) s.l2 i1
        simp only
        split
        · exact ih _ i2
        · split
          · exact ih _ i2
          · split
            · refine ih _ ?_
              exact inv_lookahead c _ i2
            · split
              · exact ih _ (i2.use (i2.ok (List.mem_cons_self ..)))
              · apply ih
                unfold held
                simp only
                split
                · split
                  · exact i2
                  · exact Inv.advance _ _ i2
                · split
                  · exact Inv.advance _ _ i2
                  · exact Inv.advance _ _ (Inv.advance _ _ i2)

theorem inv_finishAlt (c : AltCtl α) (s : Alt α) (i : Inv base (s.d :: held s) s.h) :
    Inv base ((finishAlt L c s).d :: held (finishAlt L c s)) (finishAlt L c s).h := by
  have f1 := Inv.finish (L := L) s.l1 i
  unfold finishAlt
  simp only [held]
  split
  · exact f1
  · exact f1.finish _

theorem inv_postprocessAlt (c : AltCtl α) (s : Alt α) (i : Inv base (s.d :: held s) s.h) :
    Inv base ((postprocessAlt L c s).d :: held (postprocessAlt L c s)) (postprocessAlt L c s).h := by
  have f1 := i.changePerm (L := L)
  unfold postprocessAlt
  simp only [held]
  split
  · exact f1
  · exact f1.changePerm

theorem inv_checkAlt (c : AltCtl α) (s : Alt α) (i : Inv base (s.d :: held s) s.h) :
    Inv base ((checkAlt c s).d :: held (checkAlt c s)) (checkAlt c s).h := by
  unfold checkAlt
  simp only [held]
  split
  · exact i
  · exact i.use (i.ok (List.mem_cons_self ..))

theorem inv_runAlt (c : AltCtl α) (ops1 ops2 : List α) (fuel : Nat) (op1 op2 : Option Dd) (i : Inv base (op1.toList ++ op2.toList) h) :
    Inv base ((runAlt L c ops1 ops2 fuel h op1 op2).d :: held (runAlt L c ops1 ops2 fuel h op1 op2))
      (runAlt L c ops1 ops2 fuel h op1 op2).h := by
  have i0 := i.reduceIdentity (L := L)
  have e := inv_executeAlt (L := L) c fuel
    { h := (Mem.reduceAncillae L h .fixed).1, d := (Mem.reduceAncillae L h .fixed).2, l1 := ops1, l2 := ops2, op1 := op1, op2 := op2, polls := 0 } i0
  exact inv_checkAlt c _ (inv_postprocessAlt c _ (inv_finishAlt c _ e))

theorem inv_runsAlt (ops1 ops2 : List α) (runs : List (AltCtl α × Nat)) (op1 op2 : Option Dd) (i : Inv base (op1.toList ++ op2.toList) h) :
    (runsAlt L ops1 ops2 runs h op1 op2).fault = false := by
  induction runs generalizing base h op1 op2 with
  | nil => exact i.fault
  | cons r runs ih =>
    obtain ⟨c, fuel⟩ := r
    have e := inv_runAlt (L := L) c ops1 ops2 fuel op1 op2 i
    refine ih (base := fun a => base a + [(runAlt L c ops1 ops2 fuel h op1 op2).d].count (.node a)) _ _
      ⟨e.fault, fun a => ?_, e.live, e.fresh⟩
    rw [e.refs a]
    simp only [held, List.count_cons, List.count_nil]
    omega

end
end QCEC.Mem
