import Verif.Spec.ParallelStimuli
import Verif.Props.Parallel
import Mathlib.Data.List.Forall2
/-!
# The stimuli of the simulations that a parallel run handles

Each simulation handled has its own stimulus, and the stimuli that are requested belong to simulations that have been handled or are under way.
-/
namespace QCEC.Props
open QCEC QCEC.Mgr QCEC.Par QCEC.Spec

variable {env : ParEnv} {answer : Nat → Criterion → Prop} {s0 : PState}

theorem stimulated_steps {s : PState} {σ : Nat → Nat} {k : Nat} (h : StimulatedSteps env answer s0 s σ k) : Steps env s0 s := by
  induction h with
  | refl => exact .refl _
  | request _ hst _ ih => exact .tail ih hst
  | answered _ hst _ _ ih => exact .tail ih hst
  | other _ hst _ _ ih => exact .tail ih hst

/-- A simulation that has its stimulus and is not handled yet. -/
def Live (x : Slot) : Prop := x.kind = .simulation ∧ x.failed = false ∧ x.pc ≠ .start ∧ x.pc ≠ .idle

/-- A simulation that has answered. -/
def Answered (x : Slot) : Prop := x.kind = .simulation ∧ x.failed = false ∧ (x.pc = .pushing ∨ x.pc = .queued)

/-- A simulation whose stimulus is not accounted for by a handled one. -/
def Holds (x : Slot) : Prop := x.kind = .simulation ∧ x.pc ≠ .start ∧ (x.pc ≠ .idle ∨ x.failed = true)

/-- The invariant; `H` are the stimuli of the simulations handled, in the order in which they were handled. -/
structure Stims (answer : Nat → Criterion → Prop) (s : PState) (σ : Nat → Nat) (k : Nat) (H : List Nat) : Prop where
  handled : List.Forall₂ (fun (e : Event) h => answer h e.verdict) (s.log.filter fun e => e.kind = .simulation) H
  nodup : H.Nodup
  bound : ∀ h ∈ H, h < k
  live : ∀ (i : Nat) (x : Slot), s.slots[i]? = some x → Live x → σ i < k ∧ σ i ∉ H
  distinct : ∀ (i j : Nat) (x y : Slot), s.slots[i]? = some x → s.slots[j]? = some y → Live x → Live y → σ i = σ j → i = j
  answers : ∀ (i : Nat) (x : Slot), s.slots[i]? = some x → Answered x → s.done = false → answer (σ i) x.eq
  covered : ∀ h, h < k → h ∈ H ∨ ∃ i x, s.slots[i]? = some x ∧ Holds x ∧ σ i = h

/-- Steps that neither request a stimulus nor handle a simulation. -/
theorem Stims.of_local {a b : PState} {σ : Nat → Nat} {k : Nat} {H : List Nat} (h : Stims answer a σ k H)
    (hl : (b.log.filter fun e => e.kind = .simulation) = a.log.filter fun e => e.kind = .simulation)
    (fwd : ∀ (j : Nat) (y : Slot), b.slots[j]? = some y → ∃ x, a.slots[j]? = some x ∧ (Live y → Live x) ∧
      (Answered y → b.done = false → (a.done = false ∧ Answered x ∧ x.eq = y.eq) ∨ answer (σ j) y.eq))
    (bwd : ∀ (j : Nat) (x : Slot), a.slots[j]? = some x → Holds x → ∃ y, b.slots[j]? = some y ∧ Holds y) : Stims answer b σ k H := by
  refine ⟨hl ▸ h.handled, h.nodup, h.bound, ?_, ?_, ?_, ?_⟩
  · intro i y hy hL
    obtain ⟨x, hx, h1, _⟩ := fwd i y hy
    exact h.live i x hx (h1 hL)
  · intro i j y z hy hz hLy hLz hs
    obtain ⟨x, hx, h1, _⟩ := fwd i y hy
    obtain ⟨w, hw, h2, _⟩ := fwd j z hz
    exact h.distinct i j x w hx hw (h1 hLy) (h2 hLz) hs
  · intro i y hy hA hd
    obtain ⟨x, hx, _, h2⟩ := fwd i y hy
    rcases h2 hA hd with ⟨h3, h4, h5⟩ | h3
    · rw [← h5]
      exact h.answers i x hx h4 h3
    · exact h3
  · intro n hn
    rcases h.covered n hn with h1 | ⟨i, x, hx, hH, hs⟩
    · exact Or.inl h1
    · obtain ⟨y, hy, hHy⟩ := bwd i x hx hH
      exact Or.inr ⟨i, y, hy, hHy, hs⟩

theorem upd_get (s : PState) (i j : Nat) (f : Slot → Slot) :
    (s.upd i f).slots[j]? = if i = j then s.slots[j]?.map f else s.slots[j]? := by
  unfold PState.upd
  simp only [List.getElem?_modify]
  split <;> simp_all

/-- The same for a change of one slot. -/
theorem Stims.upd {a b : PState} {σ : Nat → Nat} {k : Nat} {H : List Nat} (h : Stims answer a σ k H) {i : Nat} {x : Slot} (f : Slot → Slot)
    (hx : a.slots[i]? = some x) (hs : b.slots = (a.upd i f).slots)
    (hl : (b.log.filter fun e => e.kind = .simulation) = a.log.filter fun e => e.kind = .simulation) (hd : b.done = a.done)
    (h1 : Live (f x) → Live x) (h2 : Answered (f x) → a.done = false → (Answered x ∧ x.eq = (f x).eq) ∨ answer (σ i) (f x).eq)
    (h3 : Holds x → Holds (f x)) : Stims answer b σ k H := by
  refine h.of_local hl ?_ ?_
  · intro j y hy
    rw [hs, upd_get] at hy
    split at hy
    · rename_i hij
      subst hij
      rw [hx] at hy
      cases hy
      refine ⟨x, hx, h1, fun hA hdone => ?_⟩
      rw [hd] at hdone
      rcases h2 hA hdone with ⟨h4, h5⟩ | h4
      · exact Or.inl ⟨hdone, h4, h5⟩
      · exact Or.inr h4
    · exact ⟨y, hy, id, fun hA hdone => Or.inl ⟨hd ▸ hdone, hA, rfl⟩⟩
  · intro j y hy hH
    by_cases hij : i = j
    · subst hij
      rw [hx] at hy
      cases hy
      exact ⟨f x, by rw [hs, upd_get, if_pos rfl, hx]; rfl, h3 hH⟩
    · exact ⟨y, by rw [hs, upd_get, if_neg hij]; exact hy, hH⟩

/-- Steps that leave the slots alone. -/
theorem Stims.same {a b : PState} {σ : Nat → Nat} {k : Nat} {H : List Nat} (h : Stims answer a σ k H) (hs : b.slots = a.slots)
    (hl : b.log = a.log) (hd : b.done = false → a.done = false) : Stims answer b σ k H :=
  h.of_local (by rw [hl]) (fun j y hy => ⟨y, hs ▸ hy, id, fun hA hdone => Or.inl ⟨hd hdone, hA, rfl⟩⟩) fun j x hx hH => ⟨x, hs ▸ hx, hH⟩

theorem Stims.request {a : PState} {σ : Nat → Nat} {k i : Nat} {H : List Nat} (h : Stims answer a σ k H) {x : Slot}
    (hx : a.slots[i]? = some x) (hk : x.kind = .simulation) (hp : x.pc = .start) :
    Stims answer (a.upd i fun y => { y with pc := .built, built := true }) (fun j => if j = i then k else σ j) (k + 1) H := by
  have hget : ∀ (j : Nat) (y : Slot), (a.upd i fun y => { y with pc := .built, built := true }).slots[j]? = some y →
      (j = i ∧ y = { x with pc := .built, built := true }) ∨ (j ≠ i ∧ a.slots[j]? = some y) := by
    intro j y hy
    rw [upd_get] at hy
    split at hy
    · rename_i hij
      subst hij
      rw [hx] at hy
      cases hy
      exact Or.inl ⟨rfl, rfl⟩
    · rename_i hij
      exact Or.inr ⟨fun h => hij h.symm, hy⟩
  refine ⟨h.handled, h.nodup, fun n hn => Nat.lt_succ_of_lt (h.bound n hn), ?_, ?_, ?_, ?_⟩
  · intro j y hy hL
    rcases hget j y hy with ⟨rfl, _⟩ | ⟨hne, hy'⟩
    · simp only [if_true]
      exact ⟨Nat.lt_succ_self k, fun hm => absurd (h.bound k hm) (Nat.lt_irrefl k)⟩
    · simp only [if_neg hne]
      obtain ⟨h1, h2⟩ := h.live j y hy' hL
      exact ⟨Nat.lt_succ_of_lt h1, h2⟩
  · intro j l y z hy hz hLy hLz hs
    rcases hget j y hy with ⟨rfl, _⟩ | ⟨hne, hy'⟩
    · rcases hget l z hz with ⟨rfl, _⟩ | ⟨hne', hz'⟩
      · rfl
      · simp only [if_true, if_neg hne'] at hs
        have := (h.live l z hz' hLz).1
        omega
    · rcases hget l z hz with ⟨rfl, _⟩ | ⟨hne', hz'⟩
      · simp only [if_true, if_neg hne] at hs
        have := (h.live j y hy' hLy).1
        omega
      · simp only [if_neg hne, if_neg hne'] at hs
        exact h.distinct j l y z hy' hz' hLy hLz hs
  · intro j y hy hA hd
    rcases hget j y hy with ⟨rfl, rfl⟩ | ⟨hne, hy'⟩
    · rcases hA.2.2 with h' | h' <;> simp at h'
    · simp only [if_neg hne]
      exact h.answers j y hy' hA hd
  · intro n hn
    by_cases hnk : n = k
    · subst hnk
      exact Or.inr ⟨i, { x with pc := .built, built := true }, by rw [upd_get, if_pos rfl, hx]; rfl,
        ⟨hk, by simp, Or.inl (by simp)⟩, by simp⟩
    · rcases h.covered n (by omega) with h1 | ⟨j, y, hy, hH, hs⟩
      · exact Or.inl h1
      · have hne : j ≠ i := by
          rintro rfl
          rw [hx] at hy
          cases hy
          exact hH.2.1 hp
        exact Or.inr ⟨j, y, by rw [upd_get, if_neg (Ne.symm hne)]; exact hy, hH, by simp [if_neg hne, hs]⟩

theorem Stims.pop {a : PState} {σ : Nat → Nat} {k i : Nat} {H : List Nat} (h : Stims answer a σ k H) {x : Slot} {q : List Nat}
    (hx : a.slots[i]? = some x) (hp : x.pc = .queued) (hf : x.failed = false) (hd : a.done = false) :
    ∃ H', Stims answer (a.popped i x q) σ k H' := by
  have hget : ∀ (j : Nat) (y : Slot), (a.popped i x q).slots[j]? = some y →
      (j = i ∧ y.kind = x.kind ∧ (y.pc = .start ∨ y.pc = .idle)) ∨ (j ≠ i ∧ a.slots[j]? = some y) := by
    intro j y hy
    have hs : (a.popped i x q).slots = (a.upd i fun y => { y with pc := if (handle a.cfg a.results x.kind x.eq).2 = .relaunch then .start else .idle }).slots := rfl
    rw [hs, upd_get] at hy
    split at hy
    · rename_i hij
      subst hij
      rw [hx] at hy
      cases hy
      refine Or.inl ⟨rfl, rfl, ?_⟩
      simp only
      split <;> simp
    · rename_i hij
      exact Or.inr ⟨fun h => hij h.symm, hy⟩
  have hback : ∀ (j : Nat) (y : Slot), j ≠ i → a.slots[j]? = some y → (a.popped i x q).slots[j]? = some y := by
    intro j y hne hy
    have hs : (a.popped i x q).slots = (a.upd i fun y => { y with pc := if (handle a.cfg a.results x.kind x.eq).2 = .relaunch then .start else .idle }).slots := rfl
    rw [hs, upd_get, if_neg (Ne.symm hne)]
    exact hy
  have hnl : ∀ y : Slot, (y.pc = .start ∨ y.pc = .idle) → ¬ Live y := by
    rintro y (h1 | h1) ⟨_, _, h2, h3⟩
    · exact h2 h1
    · exact h3 h1
  have hna : ∀ y : Slot, (y.pc = .start ∨ y.pc = .idle) → ¬ Answered y := by
    rintro y (h1 | h1) ⟨_, _, h2 | h2⟩ <;> rw [h1] at h2 <;> cases h2
  have hlog : (a.popped i x q).log = a.log ++ [⟨x.kind, x.eq⟩] := rfl
  by_cases hk : x.kind = .simulation
  · have hL : Live x := ⟨hk, hf, by rw [hp]; simp, by rw [hp]; simp⟩
    obtain ⟨l1, l2⟩ := h.live i x hx hL
    refine ⟨H ++ [σ i], ?_, ?_, ?_, ?_, ?_, ?_, ?_⟩
    · rw [hlog, List.filter_append]
      refine List.rel_append h.handled ?_
      rw [List.filter_cons_of_pos (by simpa using hk)]
      exact .cons (h.answers i x hx ⟨hk, hf, Or.inr hp⟩ hd) .nil
    · rw [List.nodup_append]
      exact ⟨h.nodup, by simp, by rintro n hn m hm rfl; rw [List.mem_singleton] at hm; exact l2 (hm ▸ hn)⟩
    · intro n hn
      rcases List.mem_append.mp hn with hn | hn
      · exact h.bound n hn
      · rw [List.mem_singleton] at hn
        exact hn ▸ l1
    · intro j y hy hLy
      rcases hget j y hy with ⟨_, _, hpc⟩ | ⟨hne, hy'⟩
      · exact absurd hLy (hnl y hpc)
      · obtain ⟨h1, h2⟩ := h.live j y hy' hLy
        refine ⟨h1, fun hm => ?_⟩
        rcases List.mem_append.mp hm with hm | hm
        · exact h2 hm
        · rw [List.mem_singleton] at hm
          exact hne (h.distinct j i y x hy' hx hLy hL hm)
    · intro j l y z hy hz hLy hLz hs
      rcases hget j y hy with ⟨_, _, hpc⟩ | ⟨_, hy'⟩
      · exact absurd hLy (hnl y hpc)
      · rcases hget l z hz with ⟨_, _, hpc⟩ | ⟨_, hz'⟩
        · exact absurd hLz (hnl z hpc)
        · exact h.distinct j l y z hy' hz' hLy hLz hs
    · intro j y hy hA _
      rcases hget j y hy with ⟨_, _, hpc⟩ | ⟨_, hy'⟩
      · exact absurd hA (hna y hpc)
      · exact h.answers j y hy' hA hd
    · intro n hn
      rcases h.covered n hn with h1 | ⟨j, y, hy, hH, hs⟩
      · exact Or.inl (List.mem_append_left _ h1)
      · by_cases hji : j = i
        · subst hji
          exact Or.inl (by rw [← hs]; simp)
        · exact Or.inr ⟨j, y, hback j y hji hy, hH, hs⟩
  · refine ⟨H, ?_, h.nodup, h.bound, ?_, ?_, ?_, ?_⟩
    · rw [hlog, List.filter_append, List.filter_cons_of_neg (by simpa using hk)]
      simpa using h.handled
    · intro j y hy hLy
      rcases hget j y hy with ⟨_, _, hpc⟩ | ⟨_, hy'⟩
      · exact absurd hLy (hnl y hpc)
      · exact h.live j y hy' hLy
    · intro j l y z hy hz hLy hLz hs
      rcases hget j y hy with ⟨_, _, hpc⟩ | ⟨_, hy'⟩
      · exact absurd hLy (hnl y hpc)
      · rcases hget l z hz with ⟨_, _, hpc⟩ | ⟨_, hz'⟩
        · exact absurd hLz (hnl z hpc)
        · exact h.distinct j l y z hy' hz' hLy hLz hs
    · intro j y hy hA _
      rcases hget j y hy with ⟨_, _, hpc⟩ | ⟨_, hy'⟩
      · exact absurd hA (hna y hpc)
      · exact h.answers j y hy' hA hd
    · intro n hn
      rcases h.covered n hn with h1 | ⟨j, y, hy, hH, hs⟩
      · exact Or.inl h1
      · have hji : j ≠ i := by
          rintro rfl
          rw [hx] at hy
          cases hy
          exact hk hH.1
        exact Or.inr ⟨j, y, hback j y hji hy, hH, hs⟩

/-- The stimuli of the simulations handled. -/
theorem stimulated {cfg : Configuration} {res : Results} {s : PState} {σ : Nat → Nat} {k : Nat}
    (h : StimulatedSteps env answer (launch env.zxTransformable cfg res) s σ k) : ∃ H, Stims answer s σ k H := by
  induction h with
  | refl =>
    have hpc : ∀ (i : Nat) (x : Slot), (launch env.zxTransformable cfg res).slots[i]? = some x → x.pc = .start := by
      intro i x hx
      have := List.mem_of_getElem? hx
      simp only [launch, List.mem_map] at this
      obtain ⟨_, _, rfl⟩ := this
      rfl
    refine ⟨[], by simp [launch], by simp, by simp, ?_, ?_, ?_, by simp⟩
    · exact fun i x hx hL => absurd (hpc i x hx) hL.2.2.1
    · exact fun i j x y hx _ hL _ _ => absurd (hpc i x hx) hL.2.2.1
    · rintro i x hx ⟨_, _, h1 | h1⟩ <;> rw [hpc i x hx] at h1 <;> cases h1
  | request h hst hr ih =>
    obtain ⟨H, hH⟩ := ih
    obtain ⟨x, hx, hk, hp, rfl⟩ := hr
    exact ⟨H, hH.request hx hk hp⟩
  | answered h hst hr hc ih =>
    obtain ⟨H, hH⟩ := ih
    obtain ⟨x, hx, hk, hp, rfl⟩ := hr
    refine ⟨H, hH.upd _ hx rfl rfl rfl ?_ (fun _ hd => Or.inr (hc hd)) ?_⟩
    · rintro ⟨_, h2, _, _⟩
      exact ⟨hk, h2, by rw [hp]; simp, by rw [hp]; simp⟩
    · exact fun _ => ⟨hk, by simp, Or.inl (by simp)⟩
  | @other a b σ k h hst h1 h2 ih =>
    obtain ⟨H, hH⟩ := ih
    have hb := reachable_base (cfg := cfg) (res := res) (stimulated_steps h)
    cases hst with
    | construct i x hx hp hm =>
      have hk : x.kind ≠ .simulation := fun hk => h1 i ⟨x, hx, hk, hp, rfl⟩
      exact ⟨H, hH.upd _ hx rfl rfl rfl (fun hL => absurd hL.1 hk) (fun hA => absurd hA.1 hk) fun hL => absurd hL.1 hk⟩
    | constructThrows i x hx hp hb' ht hz hm =>
      exact ⟨H, hH.upd _ hx rfl rfl rfl (fun hL => by simp [Live] at hL) (fun hA => by simp [Answered] at hA) fun hL => absurd hp hL.2.1⟩
    | constructTerminates i x hx hp hb' ht hz hm => exact ⟨H, hH.same rfl rfl id⟩
    | stimulusThrows i x hx hp hk ht hm =>
      exact ⟨H, hH.upd _ hx rfl rfl rfl (fun hL => by simp [Live] at hL) (fun hA => by simp [Answered] at hA) fun hL => absurd hp hL.2.1⟩
    | begin i x hx hp hd hm =>
      refine ⟨H, hH.upd _ hx rfl rfl rfl ?_ (fun hA => by simp [Answered] at hA) ?_⟩
      · rintro ⟨h3, h4, _, _⟩
        exact ⟨h3, h4, by rw [hp]; simp, by rw [hp]; simp⟩
      · rintro ⟨h3, _, _⟩
        exact ⟨h3, by simp, Or.inl (by simp)⟩
    | skip i x hx hp hd hm =>
      refine ⟨H, hH.upd _ hx rfl rfl rfl ?_ (fun _ h => by rw [hd] at h; cases h) ?_⟩
      · rintro ⟨h3, h4, _, _⟩
        exact ⟨h3, h4, by rw [hp]; simp, by rw [hp]; simp⟩
      · rintro ⟨h3, _, _⟩
        exact ⟨h3, by simp, Or.inl (by simp)⟩
    | runReturns i x c hx hp hc hm =>
      have hk : x.kind ≠ .simulation := fun hk => h2 i c ⟨x, hx, hk, hp, rfl⟩
      exact ⟨H, hH.upd _ hx rfl rfl rfl (fun hL => absurd hL.1 hk) (fun hA => absurd hA.1 hk) fun hL => absurd hL.1 hk⟩
    | runThrows i x hx hp ht hm =>
      refine ⟨H, hH.upd _ hx rfl rfl rfl (fun hL => by simp [Live] at hL) (fun hA => by simp [Answered] at hA) ?_⟩
      rintro ⟨h3, _, _⟩
      exact ⟨h3, by simp, Or.inl (by simp)⟩
    | push i x hx hp hm =>
      refine ⟨H, hH.upd (fun y => { y with pc := .queued }) hx rfl rfl rfl ?_ ?_ ?_⟩
      · rintro ⟨h3, h4, _, _⟩
        exact ⟨h3, h4, by rw [hp]; simp, by rw [hp]; simp⟩
      · rintro ⟨h3, h4, _⟩ _
        exact Or.inl ⟨⟨h3, h4, Or.inl hp⟩, rfl⟩
      · rintro ⟨h3, _, _⟩
        exact ⟨h3, by simp, Or.inl (by simp)⟩
    | pop i x q hm hq hx hf => exact hH.pop hx (hb.head hx hq) hf (hb.ctl.wait hm)
    | popThrows i x q hm hq hx hf =>
      refine ⟨H, hH.upd (fun y => { y with pc := .idle }) hx rfl rfl rfl (fun hL => by simp [Live] at hL) (fun hA => by simp [Answered] at hA) ?_⟩
      rintro ⟨h3, _, _⟩
      exact ⟨h3, by simp, Or.inr hf⟩
    | timeout hm ht => exact ⟨H, hH.same rfl rfl (by simp)⟩
    | signal i x hm hx =>
      refine ⟨H, hH.upd (fun y => { y with signalled := y.signalled || y.built }) hx rfl rfl rfl id (fun hA _ => Or.inl ⟨hA, rfl⟩) id⟩
    | signalledAll i hm hi => exact ⟨H, hH.same rfl rfl id⟩
    | join hm hf => exact ⟨H, hH.same rfl rfl id⟩
    | unwind hm hf => exact ⟨H, hH.same rfl rfl id⟩

end QCEC.Props
