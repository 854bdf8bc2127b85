import Mathlib.Data.List.Nodup
import Verif.Lemmas.Queue
/-!
# Histories of the thread-safe queue
-/
namespace QCEC.Queue
variable {V : Type}

/-! ## Contents -/

theorem Seg.det {heap : Nat → Option (Node V)} {a c : Nat} {l l' : List (Nat × V)} (h : Seg heap a l c)
    (h' : Seg heap a l' c) (hl : ∀ p ∈ l, p.1 ≠ c) (hl' : ∀ p ∈ l', p.1 ≠ c) : l = l' := by
  induction h generalizing l' with
  | nil a =>
    cases l' with
    | nil => rfl
    | cons p l' => exact absurd h'.cons_inv.1 (hl' p (by simp))
  | cons a b c v l h1 hs ih =>
    cases l' with
    | nil => exact absurd h'.nil_eq (hl (a, v) (by simp))
    | cons p l' =>
      obtain ⟨h2, b', h3, h4⟩ := h'.cons_inv
      rw [h1] at h3
      simp only [Option.some.injEq, Node.mk.injEq] at h3
      obtain ⟨h3, rfl⟩ := h3
      rw [ih h4 (fun p hp => hl p (by simp [hp])) (fun p hp => hl' p (by simp [hp]))]
      rw [show p = (a, v) from Prod.ext h2 h3.symm]

theorem Contents.det {s : QState V} {vs ws : List V} (h : Contents s vs) (h' : Contents s ws) : vs = ws := by
  obtain ⟨l, h1, h2, rfl⟩ := h
  obtain ⟨l', h1', h2', rfl⟩ := h'
  rw [h1.det h1' h2 h2']

theorem HInv.tail_ne {s : QState V} {l : List (Nat × V)} (h : HInv s l) : ∀ p ∈ l, p.1 ≠ s.tail := by
  intro p hp heq
  exact (List.nodup_append.mp h.nodup).2.2 p.1 (List.mem_map_of_mem hp) s.tail (by simp) heq

theorem HInv.contents {s : QState V} {l : List (Nat × V)} (h : HInv s l) : Contents s (l.map (·.2)) :=
  ⟨l, h.seg, h.tail_ne, rfl⟩

theorem HInv.contents_eq {s : QState V} {l : List (Nat × V)} (h : HInv s l) : l.map (·.2) = s.pushed.drop s.taken.length := by
  have h1 : (s.pushed.map some).drop s.taken.length = l.map (fun p => some p.2) := by rw [h.values]; simp
  rw [← List.map_drop] at h1
  have h2 : (s.pushed.drop s.taken.length).map some = (l.map (·.2)).map some := by rw [h1]; simp
  exact (List.map_injective_iff.mpr (fun a b h => Option.some.inj h) h2).symm

theorem HInv.taken_eq {s : QState V} {l : List (Nat × V)} (h : HInv s l) :
    s.taken = (s.pushed.take s.taken.length).map some := by
  rw [List.map_take, h.values]; simp

theorem reachable_contents {C : Nat → Prop} {s : QState V} (h : Reachable C s) :
    Contents s (s.pushed.drop s.taken.length) ∧ s.taken = (s.pushed.take s.taken.length).map some := by
  obtain ⟨_, _, l, hi⟩ := reachable_inv h
  exact ⟨hi.contents_eq ▸ hi.contents, hi.taken_eq⟩

theorem contents_nil_iff {s : QState V} {vs : List V} (h : Contents s vs) : vs = [] ↔ s.head = s.tail := by
  obtain ⟨l, h1, h2, rfl⟩ := h
  cases l with
  | nil => simp [h1.nil_eq]
  | cons p l =>
    have := h2 p (by simp)
    rw [h1.cons_inv.1] at this
    simp [this]

/-! ## Positions -/

/-- Elements taken are either in flight, with one thread, or have been returned, once. -/
structure PInv (s : QState V) : Prop where
  inFlight : ∀ t k v, flight (s.pc t) = some (k, v) → s.taken[k]? = some v
  once : ∀ t t' k v v', flight (s.pc t) = some (k, v) → flight (s.pc t') = some (k, v') → t = t'
  returned : ∀ k v, (k, v) ∈ s.returned → s.taken[k]? = some v
  nodup : (s.returned.map (·.1)).Nodup
  disj : ∀ t k v v', flight (s.pc t) = some (k, v) → (k, v') ∉ s.returned
  all : ∀ k, k < s.taken.length → (∃ v, (k, v) ∈ s.returned) ∨ ∃ t v, flight (s.pc t) = some (k, v)

theorem PInv.quiet {s s' : QState V} (h : PInv s) (hf : ∀ t, flight (s'.pc t) = flight (s.pc t)) (h1 : s'.taken = s.taken)
    (h2 : s'.returned = s.returned) : PInv s' := by
  refine ⟨?_, ?_, ?_, ?_, ?_, ?_⟩
  · intro t k v; rw [hf, h1]; exact h.inFlight t k v
  · intro t t' k v v'; rw [hf, hf]; exact h.once t t' k v v'
  · intro k v; rw [h1, h2]; exact h.returned k v
  · rw [h2]; exact h.nodup
  · intro t k v v'; rw [hf, h2]; exact h.disj t k v v'
  · intro k; rw [h1, h2]
    intro hk
    rcases h.all k hk with hk | ⟨t, v, hk⟩
    · exact Or.inl hk
    · exact Or.inr ⟨t, v, by rw [hf]; exact hk⟩

theorem flight_set {pc : Nat → Pc V} {t : Nat} {p : Pc V} (h : flight p = flight (pc t)) :
    ∀ t', flight (set pc t p t') = flight (pc t') := by
  intro t'
  by_cases ht : t' = t
  · subst ht; rw [set_same, h]
  · rw [set_other _ _ ht]

theorem step_pinv {C : Nat → Prop} {s s' : QState V} {l : List (Nat × V)} (hi : HInv s l) (h : PInv s) (hst : Step C s s') :
    PInv s' := by
  cases hst with
  | notifyOne t t' dl e hp hs =>
    have hne : t' ≠ t := by rintro rfl; rw [hp] at hs; simp at hs
    refine h.quiet ?_ rfl rfl
    intro t''
    have h1 := flight_set (pc := s.pc) (t := t) (p := .idle) (by rw [hp]; rfl)
    have h2 := flight_set (pc := set s.pc t .idle) (t := t') (p := .popLock dl)
      (by rw [set_other _ _ hne, hs]; rfl)
    exact (h2 t'').trans (h1 t'')
  | popTake t x m hp hx hm =>
    have hlt : ∀ k v, s.taken[k]? = some v → k < s.taken.length := fun k v hk => (List.getElem?_eq_some_iff.mp hk).1
    have hold : ∀ k v, s.taken[k]? = some v → (s.taken ++ [x.data])[k]? = some v := fun k v hk => by
      rw [List.getElem?_append_left (hlt k v hk)]; exact hk
    have key : ∀ t' k v, flight (set s.pc t (.popUnlock s.head s.taken.length x.data) t') = some (k, v) →
        (t' = t ∧ k = s.taken.length ∧ v = x.data) ∨ (t' ≠ t ∧ flight (s.pc t') = some (k, v)) := by
      intro t' k v hk
      by_cases htt : t' = t
      · subst htt
        rw [set_same] at hk
        simp only [flight, Option.some.injEq, Prod.mk.injEq] at hk
        exact Or.inl ⟨rfl, hk.1.symm, hk.2.symm⟩
      · rw [set_other _ _ htt] at hk; exact Or.inr ⟨htt, hk⟩
    refine ⟨?_, ?_, ?_, h.nodup, ?_, ?_⟩
    · intro t' k v hk
      rcases key t' k v hk with ⟨_, rfl, rfl⟩ | ⟨_, hk⟩
      · show (s.taken ++ [x.data])[s.taken.length]? = _
        simp
      · exact hold k v (h.inFlight t' k v hk)
    · intro t1 t2 k v w hv hw
      rcases key t1 k v hv with ⟨rfl, rfl, rfl⟩ | ⟨_, hv⟩
      · rcases key t2 _ w hw with ⟨rfl, _, _⟩ | ⟨_, hw⟩
        · rfl
        · exact absurd (hlt _ _ (h.inFlight t2 _ w hw)) (by simp)
      · rcases key t2 k w hw with ⟨_, rfl, _⟩ | ⟨_, hw⟩
        · exact absurd (hlt _ _ (h.inFlight t1 _ v hv)) (by simp)
        · exact h.once t1 t2 k v w hv hw
    · intro k v hk; exact hold k v (h.returned k v hk)
    · intro t' k v w hk hm
      rcases key t' k v hk with ⟨_, rfl, _⟩ | ⟨_, hk⟩
      · exact absurd (hlt _ _ (h.returned _ w hm)) (by simp)
      · exact h.disj t' k v w hk hm
    · intro k hk
      change k < (s.taken ++ [x.data]).length at hk
      rw [List.length_append, List.length_singleton] at hk
      by_cases hk' : k = s.taken.length
      · subst hk'
        exact Or.inr ⟨t, x.data, by show flight (set s.pc t _ t) = _; rw [set_same]; rfl⟩
      · rcases h.all k (by omega) with hr | ⟨t', v, hr⟩
        · exact Or.inl hr
        · refine Or.inr ⟨t', v, ?_⟩
          have : t' ≠ t := by rintro rfl; rw [hp] at hr; simp [flight] at hr
          show flight (set s.pc t _ t') = _
          rw [set_other _ _ this]; exact hr
  | popRead t o k v x hp hx =>
    have hd : x.data = v := by
      have := (hi.own t o ⟨v, none⟩ (by rw [hp]; rfl)).1
      rw [hx] at this
      cases this; rfl
    have hfl : flight (s.pc t) = some (k, v) := by rw [hp]; rfl
    have key : ∀ t' j w, flight (set s.pc t .idle t') = some (j, w) → t' ≠ t ∧ flight (s.pc t') = some (j, w) := by
      intro t' j w hj
      by_cases htt : t' = t
      · subst htt; rw [set_same] at hj; simp [flight] at hj
      · rw [set_other _ _ htt] at hj; exact ⟨htt, hj⟩
    refine ⟨?_, ?_, ?_, ?_, ?_, ?_⟩
    · intro t' j w hj; exact h.inFlight t' j w (key t' j w hj).2
    · intro t1 t2 j w z hw hz; exact h.once t1 t2 j w z (key _ _ _ hw).2 (key _ _ _ hz).2
    · intro j w hj
      rcases List.mem_append.mp hj with hj | hj
      · exact h.returned j w hj
      · simp only [List.mem_singleton, Prod.mk.injEq] at hj
        rw [hj.1, hj.2, hd]
        exact h.inFlight t k v hfl
    · show ((s.returned ++ [(k, x.data)]).map (·.1)).Nodup
      rw [List.map_append, List.nodup_append]
      refine ⟨h.nodup, by simp, ?_⟩
      intro a ha b hb
      simp only [List.map_cons, List.map_nil, List.mem_singleton] at hb
      subst hb
      rintro rfl
      obtain ⟨⟨a, w⟩, hp', rfl⟩ := List.mem_map.mp ha
      exact h.disj t a v w hfl hp'
    · intro t' j w z hj hm
      obtain ⟨htt, hj⟩ := key t' j w hj
      rcases List.mem_append.mp hm with hm | hm
      · exact h.disj t' j w z hj hm
      · simp only [List.mem_singleton, Prod.mk.injEq] at hm
        rw [hm.1] at hj
        exact htt (h.once t' t k w v hj hfl)
    · intro j hj
      rcases h.all j hj with ⟨w, hw⟩ | ⟨t', w, hw⟩
      · exact Or.inl ⟨w, List.mem_append_left _ hw⟩
      · by_cases htt : t' = t
        · subst htt
          rw [hfl] at hw
          cases hw
          exact Or.inl ⟨x.data, List.mem_append_right _ (by simp)⟩
        · refine Or.inr ⟨t', w, ?_⟩
          show flight (set s.pc t _ t') = _
          rw [set_other _ _ htt]; exact hw
  | tick => exact h.quiet (fun _ => rfl) rfl rfl
  | checkFull t dl hp hf he => exact h.quiet (flight_set (by rw [hp]; split <;> rfl)) rfl rfl
  | push t v n hp hn => exact h.quiet (flight_set (by rw [hp]; rfl)) rfl rfl
  | pushLock t v n hp hf => exact h.quiet (flight_set (by rw [hp]; rfl)) rfl rfl
  | pushData t v n x hp hx => exact h.quiet (flight_set (by rw [hp]; rfl)) rfl rfl
  | pushNext t v n x hp hx => exact h.quiet (flight_set (by rw [hp]; rfl)) rfl rfl
  | pushTail t v n hp => exact h.quiet (flight_set (by rw [hp]; rfl)) rfl rfl
  | pushUnlock t hp => exact h.quiet (flight_set (by rw [hp]; rfl)) rfl rfl
  | notifyNone t hp hs => exact h.quiet (flight_set (by rw [hp]; rfl)) rfl rfl
  | pop t dl hp hc => exact h.quiet (flight_set (by rw [hp]; rfl)) rfl rfl
  | popLock t dl hp hf => exact h.quiet (flight_set (by rw [hp]; rfl)) rfl rfl
  | checkEmpty t dl hp hf he => exact h.quiet (flight_set (by rw [hp]; rfl)) rfl rfl
  | sleep t dl hp => exact h.quiet (flight_set (by rw [hp]; rfl)) rfl rfl
  | spurious t dl e hp => exact h.quiet (flight_set (by rw [hp]; rfl)) rfl rfl
  | deadline t d e hp hd => exact h.quiet (flight_set (by rw [hp]; rfl)) rfl rfl
  | popLate t d hp hf => exact h.quiet (flight_set (by rw [hp]; rfl)) rfl rfl
  | finalEmpty t d l hp hf he => exact h.quiet (flight_set (by rw [hp]; rfl)) rfl rfl
  | finalFull t d l hp hf he => exact h.quiet (flight_set (by rw [hp]; rfl)) rfl rfl
  | popNull t d hp => exact h.quiet (flight_set (by rw [hp]; rfl)) rfl rfl
  | popUnlock t o k v hp => exact h.quiet (flight_set (by rw [hp]; rfl)) rfl rfl

theorem reachable_pinv {C : Nat → Prop} {s : QState V} (h : Reachable C s) : PInv s := by
  unfold Reachable at h
  induction h with
  | refl =>
    refine ⟨?_, ?_, ?_, ?_, ?_, ?_⟩ <;> simp [init, flight]
  | tail hs hst ih =>
    obtain ⟨_, _, l, hi⟩ := reachable_inv hs
    exact step_pinv hi ih hst

/-! ## Consumers and deadlines -/

/-- What a thread inside a pop knows. -/
def popping : Pc V → Prop
  | .popLock _ | .popCheck _ | .popSleep _ | .asleep _ _ | .popLate _ | .popFinal _ _ | .popTake | .popUnlock _ _ _
  | .popRead _ _ _ | .popNull _ => True
  | _ => False

structure DInv (C : Nat → Prop) (s : QState V) : Prop where
  consumer : ∀ t, popping (s.pc t) → C t
  late : ∀ t d, s.pc t = .popLate d → d ≤ s.now
  finalLate : ∀ t d, s.pc t = .popFinal d true → ∃ x, d = some x ∧ x ≤ s.now
  finalEarly : ∀ t d, s.pc t = .popFinal d false → d ≠ none ∧ s.head ≠ s.tail
  nulls : ∀ d n, (d, n) ∈ s.nulls → ∃ x, d = some x ∧ x ≤ n

/-- Steps of a thread that is not, and does not get, at one of the special places. -/
theorem DInv.quiet {C : Nat → Prop} {s s' : QState V} (h : DInv C s) {t : Nat} {p : Pc V} (hpc : s'.pc = set s.pc t p)
    (hp : popping p → C t) (hl : ∀ d, p = .popLate d → d ≤ s.now)
    (hf : ∀ d, p = .popFinal d true → ∃ x, d = some x ∧ x ≤ s.now)
    (he : ∀ d, p = .popFinal d false → d ≠ none ∧ s.head ≠ s.tail) (h1 : s'.head = s.head) (h2 : s'.tail = s.tail)
    (h3 : s'.now = s.now) (h4 : s'.nulls = s.nulls) : DInv C s' := by
  have key : ∀ t', (t' = t ∧ s'.pc t' = p) ∨ s'.pc t' = s.pc t' := by
    intro t'
    rw [hpc]
    by_cases htt : t' = t
    · subst htt; exact Or.inl ⟨rfl, set_same _ _ _⟩
    · exact Or.inr (set_other _ _ htt)
  refine ⟨?_, ?_, ?_, ?_, ?_⟩
  · intro t' ht'
    rcases key t' with ⟨rfl, hk⟩ | hk
    · rw [hk] at ht'; exact hp ht'
    · rw [hk] at ht'; exact h.consumer t' ht'
  · intro t' d ht'
    rw [h3]
    rcases key t' with ⟨rfl, hk⟩ | hk
    · rw [hk] at ht'; exact hl d ht'
    · rw [hk] at ht'; exact h.late t' d ht'
  · intro t' d ht'
    rw [h3]
    rcases key t' with ⟨rfl, hk⟩ | hk
    · rw [hk] at ht'; exact hf d ht'
    · rw [hk] at ht'; exact h.finalLate t' d ht'
  · intro t' d ht'
    rw [h1, h2]
    rcases key t' with ⟨rfl, hk⟩ | hk
    · rw [hk] at ht'; exact he d ht'
    · rw [hk] at ht'; exact h.finalEarly t' d ht'
  · rw [h4]; exact h.nulls

theorem step_dinv {C : Nat → Prop} {s s' : QState V} (hl : LInv s) {l : List (Nat × V)} (hi : HInv s l) (h : DInv C s)
    (hst : Step C s s') : DInv C s' := by
  have hC : ∀ t, popping (s.pc t) → C t := h.consumer
  cases hst with
  | push t v n hp hn => exact h.quiet rfl (by simp [popping]) (by simp) (by simp) (by simp) rfl rfl rfl rfl
  | pushLock t v n hp hf => exact h.quiet rfl (by simp [popping]) (by simp) (by simp) (by simp) rfl rfl rfl rfl
  | pushData t v n x hp hx => exact h.quiet rfl (by simp [popping]) (by simp) (by simp) (by simp) rfl rfl rfl rfl
  | pushNext t v n x hp hx => exact h.quiet rfl (by simp [popping]) (by simp) (by simp) (by simp) rfl rfl rfl rfl
  | pushTail t v n hp =>
    have key : ∀ t', (t' = t ∧ set s.pc t .pushUnlock t' = .pushUnlock) ∨ set s.pc t .pushUnlock t' = s.pc t' := by
      intro t'
      by_cases htt : t' = t
      · subst htt; exact Or.inl ⟨rfl, set_same _ _ _⟩
      · exact Or.inr (set_other _ _ htt)
    refine ⟨?_, ?_, ?_, ?_, h.nulls⟩
    · intro t' ht'
      change popping (set s.pc t .pushUnlock t') at ht'
      rcases key t' with ⟨rfl, hk⟩ | hk
      · rw [hk] at ht'; exact absurd ht' (fun h => h)
      · rw [hk] at ht'; exact h.consumer t' ht'
    · intro t' d ht'
      change set s.pc t .pushUnlock t' = _ at ht'
      rcases key t' with ⟨rfl, hk⟩ | hk
      · rw [hk] at ht'; simp at ht'
      · rw [hk] at ht'; exact h.late t' d ht'
    · intro t' d ht'
      change set s.pc t .pushUnlock t' = _ at ht'
      rcases key t' with ⟨rfl, hk⟩ | hk
      · rw [hk] at ht'; simp at ht'
      · rw [hk] at ht'; exact h.finalLate t' d ht'
    · intro t' d ht'
      change set s.pc t .pushUnlock t' = _ at ht'
      rcases key t' with ⟨rfl, hk⟩ | hk
      · rw [hk] at ht'; simp at ht'
      · rw [hk] at ht'
        exact ⟨(h.finalEarly t' d ht').1, hi.head_ne_own (t := t) (x := {}) (by rw [hp]; rfl)⟩
  | pushUnlock t hp => exact h.quiet rfl (by simp [popping]) (by simp) (by simp) (by simp) rfl rfl rfl rfl
  | notifyNone t hp hs => exact h.quiet rfl (by simp [popping]) (by simp) (by simp) (by simp) rfl rfl rfl rfl
  | notifyOne t t' dl e hp hs =>
    have h1 : DInv C (s.goto t .idle) :=
      h.quiet (t := t) (p := .idle) rfl (by simp [popping]) (by simp) (by simp) (by simp) rfl rfl rfl rfl
    exact h1.quiet (t := t') rfl (fun _ => hC t' (by rw [hs]; trivial)) (by simp) (by simp) (by simp) rfl rfl rfl rfl
  | pop t dl hp hc => exact h.quiet rfl (fun _ => hc) (by simp) (by simp) (by simp) rfl rfl rfl rfl
  | popLock t dl hp hf =>
    exact h.quiet rfl (fun _ => hC t (by rw [hp]; trivial)) (by simp) (by simp) (by simp) rfl rfl rfl rfl
  | checkEmpty t dl hp hf he =>
    exact h.quiet rfl (fun _ => hC t (by rw [hp]; trivial)) (by simp) (by simp) (by simp) rfl rfl rfl rfl
  | checkFull t dl hp hf he =>
    refine h.quiet rfl (fun _ => hC t (by rw [hp]; trivial)) (by split <;> simp) (by split <;> simp) ?_ rfl rfl rfl rfl
    intro d hd
    split at hd
    · simp at hd
    · rename_i hdl
      simp only [Pc.popFinal.injEq, and_true] at hd
      subst hd
      exact ⟨hdl, by simpa [QState.isEmpty] using he⟩
  | sleep t dl hp =>
    exact h.quiet rfl (fun _ => hC t (by rw [hp]; trivial)) (by simp) (by simp) (by simp) rfl rfl rfl rfl
  | spurious t dl e hp =>
    exact h.quiet rfl (fun _ => hC t (by rw [hp]; trivial)) (by simp) (by simp) (by simp) rfl rfl rfl rfl
  | deadline t d e hp hd =>
    refine h.quiet rfl (fun _ => hC t (by rw [hp]; trivial)) ?_ (by simp) (by simp) rfl rfl rfl rfl
    intro d' hd'
    simp only [Pc.popLate.injEq] at hd'
    rw [← hd']; exact hd
  | popLate t d hp hf =>
    refine h.quiet rfl (fun _ => hC t (by rw [hp]; trivial)) (by simp) ?_ (by simp) rfl rfl rfl rfl
    intro d' hd'
    simp only [Pc.popFinal.injEq, and_true] at hd'
    exact ⟨d, hd'.symm, h.late t d hp⟩
  | finalEmpty t d l hp hf he =>
    have h1 : DInv C (s.goto t (.popNull d)) :=
      h.quiet (t := t) rfl (fun _ => hC t (by rw [hp]; trivial)) (by simp) (by simp) (by simp) rfl rfl rfl rfl
    refine ⟨h1.consumer, h1.late, h1.finalLate, h1.finalEarly, ?_⟩
    intro d' n hd'
    rcases List.mem_append.mp hd' with hd' | hd'
    · exact h.nulls d' n hd'
    · simp only [List.mem_singleton, Prod.mk.injEq] at hd'
      obtain ⟨rfl, rfl⟩ := hd'
      cases l with
      | true => exact h.finalLate t d' hp
      | false => exact absurd (by simpa [QState.isEmpty] using he) (h.finalEarly t d' hp).2
  | finalFull t d l hp hf he =>
    exact h.quiet rfl (fun _ => hC t (by rw [hp]; trivial)) (by simp) (by simp) (by simp) rfl rfl rfl rfl
  | popNull t d hp => exact h.quiet rfl (by simp [popping]) (by simp) (by simp) (by simp) rfl rfl rfl rfl
  | popTake t x m hp hx hm =>
    have hother : ∀ t', t' ≠ t → ¬ holdsHead (s.pc t') := by
      intro t' htt hh
      have h1 := (hl.head t').mp hh
      have h2 := (hl.head t).mp (by rw [hp]; trivial)
      rw [h1] at h2
      exact htt (Option.some.inj h2)
    have h1 : DInv C (s.goto t (.popUnlock s.head s.taken.length x.data)) :=
      h.quiet (t := t) rfl (fun _ => hC t (by rw [hp]; trivial)) (by simp) (by simp) (by simp) rfl rfl rfl rfl
    refine ⟨h1.consumer, h1.late, h1.finalLate, ?_, h1.nulls⟩
    intro t' d ht'
    change set s.pc t _ t' = _ at ht'
    by_cases htt : t' = t
    · subst htt; rw [set_same] at ht'; simp at ht'
    · rw [set_other _ _ htt] at ht'
      exact absurd (by rw [ht']; trivial) (hother t' htt)
  | popUnlock t o k v hp =>
    exact h.quiet rfl (fun _ => hC t (by rw [hp]; trivial)) (by simp) (by simp) (by simp) rfl rfl rfl rfl
  | popRead t o k v x hp hx => exact h.quiet rfl (by simp [popping]) (by simp) (by simp) (by simp) rfl rfl rfl rfl
  | tick =>
    refine ⟨h.consumer, fun t d hd => Nat.le_succ_of_le (h.late t d hd), fun t d hd => ?_, h.finalEarly, h.nulls⟩
    obtain ⟨x, hx, hxn⟩ := h.finalLate t d hd
    exact ⟨x, hx, Nat.le_succ_of_le hxn⟩

theorem reachable_dinv {C : Nat → Prop} {s : QState V} (h : Reachable C s) : DInv C s := by
  unfold Reachable at h
  induction h with
  | refl => refine ⟨?_, ?_, ?_, ?_, ?_⟩ <;> simp [init, popping]
  | tail hs hst ih =>
    obtain ⟨hl, _, l, hi⟩ := reachable_inv hs
    exact step_dinv hl hi ih hst

/-! ## Wake-ups -/

/-- The only consumer: if it fell asleep while the queue was empty and there is an element now, a producer is about to wake it. -/
def WInv (c : Nat) (s : QState V) : Prop :=
  ∀ dl, s.pc c = .asleep dl true → s.head ≠ s.tail → ∃ t, s.pc t = .pushUnlock ∨ s.pc t = .pushNotify

theorem WInv.quiet {c : Nat} {s s' : QState V} (h : WInv c s) {t : Nat} {p : Pc V} (hpc : s'.pc = set s.pc t p)
    (hp : ∀ dl, p ≠ .asleep dl true) (hn : s.pc t ≠ .pushUnlock ∧ s.pc t ≠ .pushNotify) (h1 : s'.head = s.head)
    (h2 : s'.tail = s.tail) : WInv c s' := by
  intro dl hdl hne
  rw [h1, h2] at hne
  rw [hpc] at hdl
  have hct : c ≠ t := by rintro rfl; rw [set_same] at hdl; exact hp dl hdl
  rw [set_other _ _ hct] at hdl
  obtain ⟨t', ht'⟩ := h dl hdl hne
  refine ⟨t', ?_⟩
  have : t' ≠ t := by
    rintro rfl
    rcases ht' with ht' | ht'
    · exact hn.1 ht'
    · exact hn.2 ht'
  rw [hpc, set_other _ _ this]; exact ht'

theorem step_winv {C : Nat → Prop} {c : Nat} (hc : ∀ t, C t → t = c) {s s' : QState V} (hd : DInv C s) (h : WInv c s)
    (hst : Step C s s') : WInv c s' := by
  cases hst with
  | pushTail t v n hp =>
    intro dl _ _
    exact ⟨t, Or.inl (set_same _ _ _)⟩
  | pushUnlock t hp =>
    intro dl _ _
    exact ⟨t, Or.inr (set_same _ _ _)⟩
  | notifyNone t hp hs =>
    intro dl hdl _
    change set s.pc t .idle c = _ at hdl
    by_cases hct : c = t
    · subst hct; rw [set_same] at hdl; simp at hdl
    · rw [set_other _ _ hct] at hdl; exact absurd hdl (hs c dl true)
  | notifyOne t t' dl e hp hs =>
    intro dl' hdl _
    have : t' = c := hc t' (hd.consumer t' (by rw [hs]; trivial))
    subst this
    change set (set s.pc t .idle) t' _ t' = _ at hdl
    rw [set_same] at hdl; simp at hdl
  | sleep t dl hp =>
    intro dl' hdl hne
    change set s.pc t _ c = _ at hdl
    have htc : t = c := hc t (hd.consumer t (by rw [hp]; trivial))
    subst htc
    rw [set_same] at hdl
    simp only [Pc.asleep.injEq, QState.isEmpty, decide_eq_true_eq] at hdl
    exact absurd hdl.2 hne
  | popTake t x m hp hx hm =>
    intro dl hdl _
    have htc : t = c := hc t (hd.consumer t (by rw [hp]; trivial))
    subst htc
    change set s.pc t _ t = _ at hdl
    rw [set_same] at hdl; simp at hdl
  | checkFull t dl hp hf he =>
    exact h.quiet rfl (by intro dl'; split <;> simp) (by rw [hp]; simp) rfl rfl
  | tick => exact h
  | push t v n hp hn => exact h.quiet rfl (by simp) (by rw [hp]; simp) rfl rfl
  | pushLock t v n hp hf => exact h.quiet rfl (by simp) (by rw [hp]; simp) rfl rfl
  | pushData t v n x hp hx => exact h.quiet rfl (by simp) (by rw [hp]; simp) rfl rfl
  | pushNext t v n x hp hx => exact h.quiet rfl (by simp) (by rw [hp]; simp) rfl rfl
  | pop t dl hp hc => exact h.quiet rfl (by simp) (by rw [hp]; simp) rfl rfl
  | popLock t dl hp hf => exact h.quiet rfl (by simp) (by rw [hp]; simp) rfl rfl
  | checkEmpty t dl hp hf he => exact h.quiet rfl (by simp) (by rw [hp]; simp) rfl rfl
  | spurious t dl e hp => exact h.quiet rfl (by simp) (by rw [hp]; simp) rfl rfl
  | deadline t d e hp hd => exact h.quiet rfl (by simp) (by rw [hp]; simp) rfl rfl
  | popLate t d hp hf => exact h.quiet rfl (by simp) (by rw [hp]; simp) rfl rfl
  | finalEmpty t d l hp hf he => exact h.quiet rfl (by simp) (by rw [hp]; simp) rfl rfl
  | finalFull t d l hp hf he => exact h.quiet rfl (by simp) (by rw [hp]; simp) rfl rfl
  | popNull t d hp => exact h.quiet rfl (by simp) (by rw [hp]; simp) rfl rfl
  | popUnlock t o k v hp => exact h.quiet rfl (by simp) (by rw [hp]; simp) rfl rfl
  | popRead t o k v x hp hx => exact h.quiet rfl (by simp) (by rw [hp]; simp) rfl rfl

theorem reachable_winv {C : Nat → Prop} {c : Nat} (hc : ∀ t, C t → t = c) {s : QState V} (h : Reachable C s) : WInv c s := by
  unfold Reachable at h
  induction h with
  | refl => intro dl hdl; simp [init] at hdl
  | tail hs hst ih => exact step_winv hc (reachable_dinv hs) ih hst

end QCEC.Queue
