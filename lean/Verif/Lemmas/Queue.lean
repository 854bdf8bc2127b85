import Mathlib.Tactic.ByContra
import Verif.Spec.Queue
/-!
# Invariants of the thread-safe queue
-/
namespace QCEC.Queue
variable {V : Type}

theorem set_same {α : Type} (f : Nat → α) (i : Nat) (a : α) : set f i a i = a := by simp [set]
theorem set_other {α : Type} (f : Nat → α) {i j : Nat} (a : α) (h : j ≠ i) : set f i a j = f j := by simp [set, h]

/-! ## Mutexes -/

/-- The thread is between acquiring and releasing `tailMutex`. -/
def holdsTail : Pc V → Prop
  | .pushData _ _ | .pushNext _ _ | .pushTail _ _ | .pushUnlock => True
  | _ => False

/-- The thread is between acquiring and releasing `headMutex`. -/
def holdsHead : Pc V → Prop
  | .popCheck _ | .popSleep _ | .popFinal _ _ | .popTake | .popUnlock _ _ _ | .popNull _ => True
  | _ => False

/-- Mutual exclusion. -/
structure LInv (s : QState V) : Prop where
  head : ∀ t, holdsHead (s.pc t) ↔ s.headMutex = some t
  tail : ∀ t, holdsTail (s.pc t) ↔ s.tailMutex = some t

theorem lock_same {P : Pc V → Prop} {pc : Nat → Pc V} {m : Option Nat} (h : ∀ t, P (pc t) ↔ m = some t) {t : Nat} {p : Pc V}
    (hp : P p ↔ P (pc t)) : ∀ t', P (set pc t p t') ↔ m = some t' := by
  intro t'
  by_cases ht : t' = t
  · subst ht; rw [set_same, hp]; exact h t'
  · rw [set_other _ _ ht]; exact h t'

theorem lock_acquire {P : Pc V → Prop} {pc : Nat → Pc V} (h : ∀ t, P (pc t) ↔ (none : Option Nat) = some t) {t : Nat} {p : Pc V}
    (hp : P p) : ∀ t', P (set pc t p t') ↔ some t = some t' := by
  intro t'
  by_cases ht : t' = t
  · subst ht; rw [set_same]; simp [hp]
  · rw [set_other _ _ ht, h t']; simp [Ne.symm ht]

theorem lock_release {P : Pc V → Prop} {pc : Nat → Pc V} {m : Option Nat} (h : ∀ t, P (pc t) ↔ m = some t) {t : Nat} {p : Pc V}
    (hp : P (pc t)) (hp' : ¬ P p) : ∀ t', P (set pc t p t') ↔ (none : Option Nat) = some t' := by
  intro t'
  have hm := (h t).mp hp
  by_cases ht : t' = t
  · subst ht; rw [set_same]; simp [hp']
  · rw [set_other _ _ ht, h t', hm]; simp [Ne.symm ht]

theorem step_linv {C : Nat → Prop} {s s' : QState V} (h : LInv s) (hst : Step C s s') : LInv s' := by
  cases hst with
  | push t v n hp hn => exact ⟨lock_same h.head (by rw [hp]; rfl), lock_same h.tail (by rw [hp]; rfl)⟩
  | pushLock t v n hp hf => exact ⟨lock_same h.head (by rw [hp]; rfl), lock_acquire (hf ▸ h.tail) trivial⟩
  | pushData t v n x hp hx => exact ⟨lock_same h.head (by rw [hp]; rfl), lock_same h.tail (by rw [hp]; rfl)⟩
  | pushNext t v n x hp hx => exact ⟨lock_same h.head (by rw [hp]; rfl), lock_same h.tail (by rw [hp]; rfl)⟩
  | pushTail t v n hp => exact ⟨lock_same h.head (by rw [hp]; rfl), lock_same h.tail (by rw [hp]; rfl)⟩
  | pushUnlock t hp =>
    exact ⟨lock_same h.head (by rw [hp]; rfl), lock_release h.tail (by rw [hp]; trivial) (by exact fun h => h)⟩
  | notifyNone t hp hs => exact ⟨lock_same h.head (by rw [hp]; rfl), lock_same h.tail (by rw [hp]; rfl)⟩
  | notifyOne t t' dl e hp hs =>
    have hne : t' ≠ t := by rintro rfl; rw [hp] at hs; simp at hs
    have h1 : ∀ x, holdsHead (set s.pc t .idle x) ↔ s.headMutex = some x := lock_same h.head (by rw [hp]; rfl)
    have h2 : ∀ x, holdsTail (set s.pc t .idle x) ↔ s.tailMutex = some x := lock_same h.tail (by rw [hp]; rfl)
    exact ⟨lock_same h1 (by rw [set_other _ _ hne, hs]; rfl), lock_same h2 (by rw [set_other _ _ hne, hs]; rfl)⟩
  | pop t dl hp hc => exact ⟨lock_same h.head (by rw [hp]; rfl), lock_same h.tail (by rw [hp]; rfl)⟩
  | popLock t dl hp hf => exact ⟨lock_acquire (hf ▸ h.head) trivial, lock_same h.tail (by rw [hp]; rfl)⟩
  | checkEmpty t dl hp hf he => exact ⟨lock_same h.head (by rw [hp]; rfl), lock_same h.tail (by rw [hp]; rfl)⟩
  | checkFull t dl hp hf he =>
    exact ⟨lock_same h.head (by rw [hp]; split <;> rfl), lock_same h.tail (by rw [hp]; split <;> rfl)⟩
  | sleep t dl hp =>
    exact ⟨lock_release h.head (by rw [hp]; trivial) (by exact fun h => h), lock_same h.tail (by rw [hp]; rfl)⟩
  | spurious t dl e hp => exact ⟨lock_same h.head (by rw [hp]; rfl), lock_same h.tail (by rw [hp]; rfl)⟩
  | deadline t d e hp hd => exact ⟨lock_same h.head (by rw [hp]; rfl), lock_same h.tail (by rw [hp]; rfl)⟩
  | popLate t d hp hf => exact ⟨lock_acquire (hf ▸ h.head) trivial, lock_same h.tail (by rw [hp]; rfl)⟩
  | finalEmpty t d l hp hf he => exact ⟨lock_same h.head (by rw [hp]; rfl), lock_same h.tail (by rw [hp]; rfl)⟩
  | finalFull t d l hp hf he => exact ⟨lock_same h.head (by rw [hp]; rfl), lock_same h.tail (by rw [hp]; rfl)⟩
  | popNull t d hp =>
    exact ⟨lock_release h.head (by rw [hp]; trivial) (by exact fun h => h), lock_same h.tail (by rw [hp]; rfl)⟩
  | popTake t x m hp hx hm => exact ⟨lock_same h.head (by rw [hp]; rfl), lock_same h.tail (by rw [hp]; rfl)⟩
  | popUnlock t o k v hp =>
    exact ⟨lock_release h.head (by rw [hp]; trivial) (by exact fun h => h), lock_same h.tail (by rw [hp]; rfl)⟩
  | popRead t o k v x hp hx => exact ⟨lock_same h.head (by rw [hp]; rfl), lock_same h.tail (by rw [hp]; rfl)⟩
  | tick => exact ⟨h.head, h.tail⟩

theorem init_linv : LInv (init : QState V) := ⟨fun t => by simp [init, holdsHead], fun t => by simp [init, holdsTail]⟩

theorem reachable_linv {C : Nat → Prop} {s : QState V} (h : Reachable C s) : LInv s := by
  unfold Reachable at h
  induction h with
  | refl => exact init_linv
  | tail _ hst ih => exact step_linv ih hst

/-! ## The linked list -/

theorem Seg.congr {heap heap' : Nat → Option (Node V)} {a c : Nat} {l : List (Nat × V)} (h : Seg heap a l c)
    (hh : ∀ p ∈ l, heap' p.1 = heap p.1) : Seg heap' a l c := by
  induction h with
  | nil a => exact .nil a
  | cons a b c v l h1 _ ih =>
    exact .cons a b c v l ((hh (a, v) (by simp)).trans h1) (ih fun p hp => hh p (by simp [hp]))

theorem Seg.snoc {heap : Nat → Option (Node V)} {a b c : Nat} {l : List (Nat × V)} {v : V} (h : Seg heap a l b)
    (hb : heap b = some ⟨some v, some c⟩) : Seg heap a (l ++ [(b, v)]) c := by
  induction h with
  | nil a => exact .cons a c c v [] hb (.nil c)
  | cons a b' c' v' l h1 _ ih => exact .cons a b' c v' (l ++ [(c', v)]) h1 (ih hb)

theorem Seg.nil_eq {heap : Nat → Option (Node V)} {a c : Nat} (h : Seg heap a [] c) : a = c := by cases h; rfl

theorem Seg.cons_inv {heap : Nat → Option (Node V)} {a c : Nat} {p : Nat × V} {l : List (Nat × V)} (h : Seg heap a (p :: l) c) :
    p.1 = a ∧ ∃ b, heap a = some ⟨some p.2, some b⟩ ∧ Seg heap b l c := by
  cases h with
  | cons a b c v l h1 hs => exact ⟨rfl, b, h1, hs⟩

theorem Seg.alloc {heap : Nat → Option (Node V)} {a c : Nat} {l : List (Nat × V)} (h : Seg heap a l c) {p : Nat × V}
    (hp : p ∈ l) : ∃ x, heap p.1 = some x := by
  induction h with
  | nil => simp at hp
  | cons a b c w l' h1 _ ih =>
    rcases List.mem_cons.mp hp with rfl | hp
    · exact ⟨_, h1⟩
    · exact ih hp

/-- The node a thread owns exclusively, with its contents. -/
def owns : Pc V → Option (Nat × Node V)
  | .pushLock _ n | .pushData _ n | .pushNext _ n | .pushTail _ n => some (n, {})
  | .popUnlock o _ v | .popRead o _ v => some (o, ⟨v, none⟩)
  | _ => none

/-- Contents of the last node: blank, unless its owner is writing it. -/
def lastNode : Option (Pc V) → Node V
  | some (.pushNext v _) => ⟨some v, none⟩
  | some (.pushTail v n) => ⟨some v, some n⟩
  | _ => {}

/-- The heap. -/
structure HInv (s : QState V) (l : List (Nat × V)) : Prop where
  seg : Seg s.heap s.head l s.tail
  nodup : (l.map (·.1) ++ [s.tail]).Nodup
  last : s.heap s.tail = some (lastNode (s.tailMutex.map s.pc))
  own : ∀ t n x, owns (s.pc t) = some (n, x) → s.heap n = some x ∧ n ≠ s.tail ∧ ∀ p ∈ l, p.1 ≠ n
  disj : ∀ t t' n x y, owns (s.pc t) = some (n, x) → owns (s.pc t') = some (n, y) → t = t'
  values : s.pushed.map some = s.taken ++ l.map (fun p => some p.2)

theorem init_hinv : HInv (init : QState V) [] :=
  ⟨.nil 0, by simp, by simp [init, lastNode, set], by simp [init, owns], by simp [init, owns], by simp [init]⟩

/-- Steps that touch neither the list nor owned nodes. -/
theorem HInv.quiet {s s' : QState V} {l : List (Nat × V)} (h : HInv s l) {t : Nat} {p : Pc V} (hpc : s'.pc = set s.pc t p)
    (ho : owns p = owns (s.pc t)) (hl : LInv s) (ht : ¬ holdsTail (s.pc t)) (h1 : s'.heap = s.heap) (h2 : s'.head = s.head)
    (h3 : s'.tail = s.tail) (h4 : s'.tailMutex = s.tailMutex) (h5 : s'.pushed = s.pushed) (h6 : s'.taken = s.taken) :
    HInv s' l := by
  have how : ∀ t', owns (s'.pc t') = owns (s.pc t') := by
    intro t'
    rw [hpc]
    by_cases htt : t' = t
    · subst htt; rw [set_same, ho]
    · rw [set_other _ _ htt]
  refine ⟨?_, ?_, ?_, ?_, ?_, ?_⟩
  · rw [h1, h2, h3]; exact h.seg
  · rw [h3]; exact h.nodup
  · rw [h1, h3, h4, h.last]
    congr 1
    cases hm : s.tailMutex with
    | none => rfl
    | some t' =>
      have : t' ≠ t := by rintro rfl; exact ht ((hl.tail t').mpr hm)
      simp only [Option.map_some, hpc, set_other _ _ this]
  · intro t' n x hx
    rw [how] at hx
    rw [h1, h3]; exact h.own t' n x hx
  · intro t1 t2 n x y hx hy
    rw [how] at hx hy
    exact h.disj t1 t2 n x y hx hy
  · rw [h5, h6]; exact h.values

/-- A thread that is about to take the head has found the queue non-empty. -/
def TInv (s : QState V) : Prop := ∀ t, s.pc t = .popTake → s.head ≠ s.tail

theorem step_hinv {C : Nat → Prop} {s s' : QState V} (hl : LInv s) (hT : TInv s) {l : List (Nat × V)} (h : HInv s l) (hst : Step C s s') :
    ∃ l', HInv s' l' := by
  cases hst with
  | push t v n hp hn =>
    have hnt : n ≠ s.tail := by rintro rfl; have := h.last; rw [hn] at this; simp at this
    have hnl : ∀ p ∈ l, p.1 ≠ n := by
      intro p hp' heq
      obtain ⟨x, hx⟩ := h.seg.alloc hp'
      rw [heq, hn] at hx; simp at hx
    refine ⟨l, ?_, h.nodup, ?_, ?_, ?_, h.values⟩
    · exact h.seg.congr fun p hp' => set_other _ _ (hnl p hp')
    · show set s.heap n _ s.tail = _
      rw [set_other _ _ (Ne.symm hnt), h.last]
      congr 1
      show _ = lastNode (s.tailMutex.map (set s.pc t _))
      cases hm : s.tailMutex with
      | none => rfl
      | some t' =>
        have : t' ≠ t := by
          rintro rfl
          have := (hl.tail t').mpr hm
          rw [hp] at this; exact this
        simp only [Option.map_some, set_other _ _ this]
    · intro t' m x hx
      change owns (set s.pc t _ t') = _ at hx
      show set s.heap n _ m = _ ∧ _
      by_cases htt : t' = t
      · subst htt
        rw [set_same] at hx
        simp only [owns, Option.some.injEq, Prod.mk.injEq] at hx
        obtain ⟨rfl, rfl⟩ := hx
        exact ⟨set_same _ _ _, hnt, hnl⟩
      · rw [set_other _ _ htt] at hx
        obtain ⟨h1, h2, h3⟩ := h.own t' m x hx
        have : m ≠ n := by rintro rfl; rw [hn] at h1; simp at h1
        exact ⟨(set_other _ _ this).trans h1, h2, h3⟩
    · intro t1 t2 m x y hx hy
      change owns (set s.pc t _ t1) = _ at hx
      change owns (set s.pc t _ t2) = _ at hy
      by_cases h1 : t1 = t
      · by_cases h2 : t2 = t
        · rw [h1, h2]
        · subst h1
          rw [set_same] at hx
          rw [set_other _ _ h2] at hy
          simp only [owns, Option.some.injEq, Prod.mk.injEq] at hx
          have := (h.own t2 m y hy).1
          rw [← hx.1, hn] at this; simp at this
      · by_cases h2 : t2 = t
        · subst h2
          rw [set_same] at hy
          rw [set_other _ _ h1] at hx
          simp only [owns, Option.some.injEq, Prod.mk.injEq] at hy
          have := (h.own t1 m x hx).1
          rw [← hy.1, hn] at this; simp at this
        · rw [set_other _ _ h1] at hx
          rw [set_other _ _ h2] at hy
          exact h.disj t1 t2 m x y hx hy
  | pushLock t v n hp hf =>
    refine ⟨l, h.seg, h.nodup, ?_, ?_, ?_, h.values⟩
    · show s.heap s.tail = some (lastNode (Option.map (set s.pc t _) (some t)))
      rw [h.last, hf]
      simp [set_same, lastNode]
    · intro t' m x hx
      refine h.own t' m x ?_
      change owns (set s.pc t _ t') = _ at hx
      by_cases htt : t' = t
      · subst htt; rw [set_same] at hx; rw [hp]; exact hx
      · rw [set_other _ _ htt] at hx; exact hx
    · intro t1 t2 m x y hx hy
      have key : ∀ t' z, owns (set s.pc t (.pushData v n) t') = some (m, z) → owns (s.pc t') = some (m, z) := by
        intro t' z hz
        by_cases htt : t' = t
        · subst htt; rw [set_same] at hz; rw [hp]; exact hz
        · rw [set_other _ _ htt] at hz; exact hz
      exact h.disj t1 t2 m x y (key t1 x hx) (key t2 y hy)
  | pushData t v n x hp hx =>
    have hm : s.tailMutex = some t := (hl.tail t).mp (by rw [hp]; trivial)
    have hlast := h.last
    rw [hm] at hlast
    simp only [Option.map_some, hp, lastNode] at hlast
    rw [hx] at hlast
    cases hlast
    have htl : ∀ p ∈ l, p.1 ≠ s.tail := by
      intro p hp' heq
      have := List.nodup_append.mp h.nodup
      exact this.2.2 p.1 (List.mem_map_of_mem hp') s.tail (by simp) heq
    have key : ∀ t' z, owns (set s.pc t (.pushNext v n) t') = some z → owns (s.pc t') = some z := by
      intro t' z hz
      by_cases htt : t' = t
      · subst htt; rw [set_same] at hz; rw [hp]; exact hz
      · rw [set_other _ _ htt] at hz; exact hz
    refine ⟨l, ?_, h.nodup, ?_, ?_, ?_, h.values⟩
    · exact h.seg.congr fun p hp' => set_other _ _ (htl p hp')
    · show set s.heap s.tail _ s.tail = some (lastNode (Option.map (set s.pc t _) s.tailMutex))
      rw [set_same, hm]
      simp [set_same, lastNode]
    · intro t' m z hz
      obtain ⟨h1, h2, h3⟩ := h.own t' m z (key t' _ hz)
      exact ⟨(set_other _ _ h2).trans h1, h2, h3⟩
    · intro t1 t2 m z w hz hw
      exact h.disj t1 t2 m z w (key t1 _ hz) (key t2 _ hw)
  | pushNext t v n x hp hx =>
    have hm : s.tailMutex = some t := (hl.tail t).mp (by rw [hp]; trivial)
    have hlast := h.last
    rw [hm] at hlast
    simp only [Option.map_some, hp, lastNode] at hlast
    rw [hx] at hlast
    cases hlast
    have htl : ∀ p ∈ l, p.1 ≠ s.tail := by
      intro p hp' heq
      have := List.nodup_append.mp h.nodup
      exact this.2.2 p.1 (List.mem_map_of_mem hp') s.tail (by simp) heq
    have key : ∀ t' z, owns (set s.pc t (.pushTail v n) t') = some z → owns (s.pc t') = some z := by
      intro t' z hz
      by_cases htt : t' = t
      · subst htt; rw [set_same] at hz; rw [hp]; exact hz
      · rw [set_other _ _ htt] at hz; exact hz
    refine ⟨l, ?_, h.nodup, ?_, ?_, ?_, h.values⟩
    · exact h.seg.congr fun p hp' => set_other _ _ (htl p hp')
    · show set s.heap s.tail _ s.tail = some (lastNode (Option.map (set s.pc t _) s.tailMutex))
      rw [set_same, hm]
      simp [set_same, lastNode]
    · intro t' m z hz
      obtain ⟨h1, h2, h3⟩ := h.own t' m z (key t' _ hz)
      exact ⟨(set_other _ _ h2).trans h1, h2, h3⟩
    · intro t1 t2 m z w hz hw
      exact h.disj t1 t2 m z w (key t1 _ hz) (key t2 _ hw)
  | pushTail t v n hp =>
    have hm : s.tailMutex = some t := (hl.tail t).mp (by rw [hp]; trivial)
    have hlast := h.last
    rw [hm] at hlast
    simp only [Option.map_some, hp, lastNode] at hlast
    obtain ⟨hn1, hn2, hn3⟩ := h.own t n {} (by rw [hp]; rfl)
    have key : ∀ t' z, owns (set s.pc t .pushUnlock t') = some z → t' ≠ t ∧ owns (s.pc t') = some z := by
      intro t' z hz
      by_cases htt : t' = t
      · subst htt; rw [set_same] at hz; simp [owns] at hz
      · rw [set_other _ _ htt] at hz; exact ⟨htt, hz⟩
    refine ⟨l ++ [(s.tail, v)], h.seg.snoc hlast, ?_, ?_, ?_, ?_, ?_⟩
    · show ((l ++ [(s.tail, v)]).map (·.1) ++ [n]).Nodup
      rw [List.map_append, List.nodup_append]
      refine ⟨h.nodup, by simp, ?_⟩
      intro a ha b hb
      simp only [List.mem_singleton] at hb
      subst hb
      rcases List.mem_append.mp ha with ha | ha
      · obtain ⟨p, hp', rfl⟩ := List.mem_map.mp ha
        exact hn3 p hp'
      · simp at ha; subst ha; exact Ne.symm hn2
    · show s.heap n = some (lastNode (Option.map (set s.pc t _) s.tailMutex))
      rw [hm, hn1]
      simp [set_same, lastNode]
    · intro t' m z hz
      obtain ⟨hne, hz'⟩ := key t' _ hz
      obtain ⟨h1, h2, h3⟩ := h.own t' m z hz'
      refine ⟨h1, ?_, ?_⟩
      · rintro rfl
        exact hne (h.disj t' t m z {} hz' (by rw [hp]; rfl))
      · intro p hp'
        rcases List.mem_append.mp hp' with hp' | hp'
        · exact h3 p hp'
        · simp at hp'; subst hp'; exact Ne.symm h2
    · intro t1 t2 m z w hz hw
      exact h.disj t1 t2 m z w (key t1 _ hz).2 (key t2 _ hw).2
    · show (s.pushed ++ [v]).map some = s.taken ++ (l ++ [(s.tail, v)]).map fun p => some p.2
      rw [List.map_append, List.map_append, h.values]
      simp
  | pushUnlock t hp =>
    have hm : s.tailMutex = some t := (hl.tail t).mp (by rw [hp]; trivial)
    have hlast := h.last
    rw [hm] at hlast
    simp only [Option.map_some, hp, lastNode] at hlast
    have key : ∀ t' z, owns (set s.pc t .pushNotify t') = some z → owns (s.pc t') = some z := by
      intro t' z hz
      by_cases htt : t' = t
      · subst htt; rw [set_same] at hz; simp [owns] at hz
      · rw [set_other _ _ htt] at hz; exact hz
    refine ⟨l, h.seg, h.nodup, ?_, ?_, ?_, h.values⟩
    · show s.heap s.tail = some (lastNode (Option.map _ none))
      rw [hlast]; rfl
    · intro t' m z hz; exact h.own t' m z (key t' _ hz)
    · intro t1 t2 m z w hz hw
      exact h.disj t1 t2 m z w (key t1 _ hz) (key t2 _ hw)
  | notifyNone t hp hs => exact ⟨l, h.quiet (t := t) rfl (by rw [hp]; rfl) hl (by rw [hp]; exact fun h => h) rfl rfl rfl rfl rfl rfl⟩
  | notifyOne t t' dl e hp hs =>
    have hne : t' ≠ t := by rintro rfl; rw [hp] at hs; simp at hs
    have h1 : HInv (s.goto t .idle) l :=
      h.quiet (t := t) rfl (by rw [hp]; rfl) hl (by rw [hp]; exact fun h => h) rfl rfl rfl rfl rfl rfl
    have hl1 : LInv (s.goto t .idle) := ⟨lock_same hl.head (by rw [hp]; rfl), lock_same hl.tail (by rw [hp]; rfl)⟩
    have hpc : (s.goto t .idle).pc t' = .asleep dl e := (set_other _ _ hne).trans hs
    exact ⟨l, h1.quiet (t := t') rfl (by rw [hpc]; rfl) hl1 (by rw [hpc]; exact fun h => h) rfl rfl rfl rfl rfl rfl⟩
  | pop t dl hp hc => exact ⟨l, h.quiet (t := t) rfl (by rw [hp]; rfl) hl (by rw [hp]; exact fun h => h) rfl rfl rfl rfl rfl rfl⟩
  | popLock t dl hp hf => exact ⟨l, h.quiet (t := t) rfl (by rw [hp]; rfl) hl (by rw [hp]; exact fun h => h) rfl rfl rfl rfl rfl rfl⟩
  | checkEmpty t dl hp hf he =>
    exact ⟨l, h.quiet (t := t) rfl (by rw [hp]; rfl) hl (by rw [hp]; exact fun h => h) rfl rfl rfl rfl rfl rfl⟩
  | checkFull t dl hp hf he =>
    exact ⟨l, h.quiet (t := t) rfl (by rw [hp]; split <;> rfl) hl (by rw [hp]; exact fun h => h) rfl rfl rfl rfl rfl rfl⟩
  | sleep t dl hp => exact ⟨l, h.quiet (t := t) rfl (by rw [hp]; rfl) hl (by rw [hp]; exact fun h => h) rfl rfl rfl rfl rfl rfl⟩
  | spurious t dl e hp => exact ⟨l, h.quiet (t := t) rfl (by rw [hp]; rfl) hl (by rw [hp]; exact fun h => h) rfl rfl rfl rfl rfl rfl⟩
  | deadline t d e hp hd => exact ⟨l, h.quiet (t := t) rfl (by rw [hp]; rfl) hl (by rw [hp]; exact fun h => h) rfl rfl rfl rfl rfl rfl⟩
  | popLate t d hp hf => exact ⟨l, h.quiet (t := t) rfl (by rw [hp]; rfl) hl (by rw [hp]; exact fun h => h) rfl rfl rfl rfl rfl rfl⟩
  | finalEmpty t d lt hp hf he =>
    exact ⟨l, h.quiet (t := t) rfl (by rw [hp]; rfl) hl (by rw [hp]; exact fun h => h) rfl rfl rfl rfl rfl rfl⟩
  | finalFull t d lt hp hf he =>
    exact ⟨l, h.quiet (t := t) rfl (by rw [hp]; rfl) hl (by rw [hp]; exact fun h => h) rfl rfl rfl rfl rfl rfl⟩
  | popNull t d hp => exact ⟨l, h.quiet (t := t) rfl (by rw [hp]; rfl) hl (by rw [hp]; exact fun h => h) rfl rfl rfl rfl rfl rfl⟩
  | popTake t x m hp hx hm =>
    have hseg := h.seg
    have hnd := h.nodup
    have hvals := h.values
    have hown := h.own
    have hne := hT t hp
    rcases l with _ | ⟨⟨a, v⟩, l⟩
    · exact absurd hseg.nil_eq hne
    · obtain ⟨h0, b, h1, hs⟩ := hseg.cons_inv
      simp only at h0
      subst h0
      rw [hx] at h1
      cases h1
      cases hm
      simp only [List.map_cons, List.cons_append, List.nodup_cons, List.mem_append, List.mem_map, List.mem_singleton,
        not_or] at hnd
      obtain ⟨⟨hnd1, hnd2⟩, hnd3⟩ := hnd
      have hln : ∀ p ∈ l, p.1 ≠ s.head := fun p hp' heq => hnd1 ⟨p, hp', heq⟩
      have key : ∀ t' n z, owns (set s.pc t (.popUnlock s.head s.taken.length (some v)) t') = some (n, z) →
          (t' = t ∧ n = s.head ∧ z = ⟨some v, none⟩) ∨ (t' ≠ t ∧ n ≠ s.head ∧ owns (s.pc t') = some (n, z)) := by
        intro t' n z hz
        by_cases htt : t' = t
        · subst htt
          rw [set_same] at hz
          simp only [owns, Option.some.injEq, Prod.mk.injEq] at hz
          exact Or.inl ⟨rfl, hz.1.symm, hz.2.symm⟩
        · rw [set_other _ _ htt] at hz
          exact Or.inr ⟨htt, fun heq => (hown t' n z hz).2.2 (s.head, v) (by simp) heq.symm, hz⟩
      refine ⟨l, ?_, hnd3, ?_, ?_, ?_, ?_⟩
      · exact hs.congr fun p hp' => set_other _ _ (hln p hp')
      · show set s.heap s.head _ s.tail = some (lastNode (s.tailMutex.map (set s.pc t _)))
        rw [set_other _ _ (Ne.symm hne), h.last]
        congr 1
        cases hmt : s.tailMutex with
        | none => rfl
        | some t' =>
          have : t' ≠ t := by
            rintro rfl
            have := (hl.tail t').mpr hmt
            rw [hp] at this; exact this
          simp only [Option.map_some, set_other _ _ this]
      · intro t' n z hz
        show set s.heap s.head _ n = _ ∧ _
        rcases key t' n z hz with ⟨rfl, rfl, rfl⟩ | ⟨_, hn, hz⟩
        · exact ⟨set_same _ _ _, hne, hln⟩
        · obtain ⟨g1, g2, g3⟩ := hown t' n z hz
          exact ⟨(set_other _ _ hn).trans g1, g2, fun p hp' => g3 p (by simp [hp'])⟩
      · intro t1 t2 n z w hz hw
        rcases key t1 n z hz with ⟨rfl, rfl, rfl⟩ | ⟨_, hn, hz⟩
        · rcases key t2 s.head w hw with ⟨rfl, _, _⟩ | ⟨_, hn, _⟩
          · rfl
          · exact absurd rfl hn
        · rcases key t2 n w hw with ⟨_, rfl, _⟩ | ⟨_, _, hw⟩
          · exact absurd rfl hn
          · exact h.disj t1 t2 n z w hz hw
      · show s.pushed.map some = (s.taken ++ [some v]) ++ l.map fun p => some p.2
        rw [hvals]; simp
  | popUnlock t o k v hp => exact ⟨l, h.quiet (t := t) rfl (by rw [hp]; rfl) hl (by rw [hp]; exact fun h => h) rfl rfl rfl rfl rfl rfl⟩
  | popRead t o k v x hp hx =>
    obtain ⟨ho1, ho2, ho3⟩ := h.own t o ⟨v, none⟩ (by rw [hp]; rfl)
    have key : ∀ t' n z, owns (set s.pc t .idle t') = some (n, z) → n ≠ o ∧ owns (s.pc t') = some (n, z) := by
      intro t' n z hz
      by_cases htt : t' = t
      · subst htt; rw [set_same] at hz; simp [owns] at hz
      · rw [set_other _ _ htt] at hz
        refine ⟨?_, hz⟩
        rintro rfl
        exact htt (h.disj t' t n z ⟨v, none⟩ hz (by rw [hp]; rfl))
    refine ⟨l, ?_, h.nodup, ?_, ?_, ?_, h.values⟩
    · exact h.seg.congr fun p hp' => set_other _ _ (ho3 p hp')
    · show set s.heap o _ s.tail = some (lastNode (s.tailMutex.map (set s.pc t _)))
      rw [set_other _ _ (Ne.symm ho2), h.last]
      congr 1
      cases hmt : s.tailMutex with
      | none => rfl
      | some t' =>
        have : t' ≠ t := by
          rintro rfl
          have := (hl.tail t').mpr hmt
          rw [hp] at this; exact this
        simp only [Option.map_some, set_other _ _ this]
    · intro t' n z hz
      obtain ⟨hn, hz⟩ := key t' n z hz
      obtain ⟨g1, g2, g3⟩ := h.own t' n z hz
      exact ⟨(set_other _ _ hn).trans g1, g2, g3⟩
    · intro t1 t2 n z w hz hw
      exact h.disj t1 t2 n z w (key t1 n z hz).2 (key t2 n w hw).2
  | tick => exact ⟨l, h.seg, h.nodup, h.last, h.own, h.disj, h.values⟩

theorem HInv.head_ne_own {s : QState V} {l : List (Nat × V)} (h : HInv s l) {t n : Nat} {x : Node V}
    (ho : owns (s.pc t) = some (n, x)) : s.head ≠ n := by
  obtain ⟨_, h2, h3⟩ := h.own t n x ho
  cases l with
  | nil => rw [h.seg.nil_eq]; exact Ne.symm h2
  | cons p l' => rw [← h.seg.cons_inv.1]; exact h3 p (by simp)

theorem tinv_set {s s' : QState V} (h : TInv s) {t : Nat} {p : Pc V} (hpc : s'.pc = set s.pc t p) (hp : p ≠ .popTake)
    (h1 : s'.head = s.head) (h2 : s'.tail = s.tail) : TInv s' := by
  intro t' ht'
  rw [hpc] at ht'
  rw [h1, h2]
  by_cases htt : t' = t
  · subst htt; rw [set_same] at ht'; exact absurd ht' hp
  · rw [set_other _ _ htt] at ht'; exact h t' ht'

theorem tinv_take {s s' : QState V} (he : s.isEmpty = false)
    (h1 : s'.head = s.head) (h2 : s'.tail = s.tail) : TInv s' := by
  intro t' _
  rw [h1, h2]
  simpa [QState.isEmpty] using he

theorem step_tinv {C : Nat → Prop} {s s' : QState V} (hl : LInv s) (hT : TInv s) {l : List (Nat × V)} (h : HInv s l)
    (hst : Step C s s') : TInv s' := by
  cases hst with
  | pushTail t v n hp =>
    intro t' ht'
    exact h.head_ne_own (t := t) (x := {}) (by rw [hp]; rfl)
  | notifyOne t t' dl e hp hs =>
    have h1 : TInv (s.goto t .idle) := tinv_set hT rfl (by simp) rfl rfl
    exact tinv_set h1 (t := t') rfl (by simp) rfl rfl
  | checkFull t dl hp hf he => exact tinv_take he rfl rfl
  | finalFull t d l hp hf he => exact tinv_take he rfl rfl
  | popTake t x m hp hx hm =>
    intro t' ht'
    change set s.pc t _ t' = _ at ht'
    by_cases htt : t' = t
    · subst htt; rw [set_same] at ht'; simp at ht'
    · rw [set_other _ _ htt] at ht'
      have h1 := (hl.head t').mp (by rw [ht']; trivial)
      have h2 := (hl.head t).mp (by rw [hp]; trivial)
      rw [h1] at h2
      exact absurd (Option.some.inj h2) htt
  | tick => exact hT
  | _ => exact tinv_set hT rfl (by simp) rfl rfl

/-- Everything about the heap holds in every reachable state. -/
theorem reachable_inv {C : Nat → Prop} {s : QState V} (h : Reachable C s) : LInv s ∧ TInv s ∧ ∃ l, HInv s l := by
  unfold Reachable at h
  induction h with
  | refl => exact ⟨init_linv, by intro t ht; simp [init] at ht, [], init_hinv⟩
  | tail _ hst ih =>
    obtain ⟨h1, h2, l, h3⟩ := ih
    exact ⟨step_linv h1 hst, step_tinv h1 h2 h3 hst, step_hinv h1 h2 h3 hst⟩

end QCEC.Queue
