import Verif.Spec.Detection
import Verif.Props.Exhaustive
import Verif.Props.FirstDistinct
/-!
# C91: how likely random simulations are to detect a difference
-/
namespace QCEC.Props
open QCEC QCEC.DD QCEC.Sem QCEC.Gen QCEC.ZX QCEC.Spec QCEC.Spec.ZX QCEC.Mgr QCEC.Prep MeasureTheory

variable {m n : Nat} {R : Rng}

/-! ## The stimuli are the first distinct numbers of the source -/

theorem after_succ (hi : Nat) : ∀ (k : Nat) (w : R.σ), after R hi (k + 1) w = (R.uniform hi (after R hi k w)).2
  | 0, _ => rfl
  | k + 1, w => after_succ hi k (R.uniform hi w).2

theorem after_add (hi j : Nat) : ∀ (k : Nat) (w : R.σ), after R hi j (after R hi k w) = after R hi (k + j) w
  | 0, w => by simp [after]
  | k + 1, w => by
    rw [show k + 1 + j = (k + j) + 1 by omega]
    exact after_add hi j k _

theorem drawn_add (hi j k : Nat) (w : R.σ) : drawn R hi j (after R hi k w) = drawn R hi (k + j) w := by
  unfold drawn
  rw [after_add]

theorem draw_at {hi : Nat} {used : List Nat} {w w' : R.σ} {v : Nat} (h : Draw R hi used w v w') :
    ∃ t, drawn R hi t w = v ∧ w' = after R hi (t + 1) w ∧ (∀ j < t, drawn R hi j w ∈ used) ∧ v ∉ used := by
  induction h with
  | fresh s h => exact ⟨0, rfl, rfl, by simp, h⟩
  | again s v s' h _ ih =>
    obtain ⟨t, h1, h2, h3, h4⟩ := ih
    refine ⟨t + 1, h1, h2, ?_, h4⟩
    intro j hj
    cases j with
    | zero => exact h
    | succ j => exact h3 j (by omega)

/-- The values of a history of classical requests. -/
theorem history_values (hd : m ≤ n) (h63 : m ≤ 63) {g' : Generator R} : ∀ {K : Nat} {g : Generator R} {sts : List Stim},
    History g (List.replicate K (.request (checkerReq n m .computationalBasis))) sts g' →
    ∃ vs : List Nat, sts = vs.map (stimOf n m) ∧ vs.Nodup ∧ (∀ v ∈ vs, v ∉ g.generated) ∧
      ∀ (i v : Nat), vs[i]? = some v → ∃ t, drawn R ((1 <<< m) - 1) t g.mt = v ∧
        ∀ j < t, drawn R ((1 <<< m) - 1) j g.mt ∈ g.generated ∨ ∃ i' : Nat, i' < i ∧ vs[i']? = some (drawn R ((1 <<< m) - 1) j g.mt) := by
  have hrand : (checkerReq n m .computationalBasis).random = m := by simp [checkerReq, Req.random]; omega
  intro K
  induction K with
  | zero =>
    intro g sts h
    cases h
    exact ⟨[], by simp⟩
  | succ K ih =>
    intro g sts h
    rw [List.replicate_succ] at h
    cases h with
    | request _ g1 _ r st evs sts hg hrest =>
      obtain ⟨vs, e1, e2, e3, e4⟩ := ih hrest
      cases hg with
      | wide bits ht hn => rw [hrand] at hn; omega
      | product ht => simp [checkerReq] at ht
      | stabilizer ht => simp [checkerReq] at ht
      | narrow v mt bits ht hn hdr hb =>
        rw [hrand] at hdr
        obtain ⟨t, h1, h2, h3, h4⟩ := draw_at hdr
        have hbits := narrow_bits (by rw [hrand]; simpa [checkerReq] using hd) (by rw [hrand]; exact h63) hb
        rw [hrand] at hbits
        refine ⟨v :: vs, ?_, ?_, ?_, ?_⟩
        · rw [e1, List.map_cons, hbits]
          rfl
        · refine List.nodup_cons.mpr ⟨fun hmem => ?_, e2⟩
          exact e3 v hmem (by simp)
        · intro u hu
          rcases List.mem_cons.mp hu with rfl | hu
          · exact h4
          · exact fun hmem => e3 u hu (by simp [hmem])
        · intro i u hu
          cases i with
          | zero =>
            simp only [List.getElem?_cons_zero, Option.some.injEq] at hu
            subst hu
            exact ⟨t, h1, fun j hj => Or.inl (h3 j hj)⟩
          | succ i =>
            simp only [List.getElem?_cons_succ] at hu
            obtain ⟨t', a1, a2⟩ := e4 i u hu
            have hmt : mt = after R ((1 <<< m) - 1) (t + 1) g.mt := h2
            simp only [hmt, drawn_add] at a1 a2
            refine ⟨t + 1 + t', a1, ?_⟩
            intro j hj
            by_cases hjt : j < t
            · exact Or.inl (h3 j hjt)
            by_cases hje : j = t
            · subst hje
              exact Or.inr ⟨0, by omega, by simp [h1]⟩
            · have := a2 (j - (t + 1)) (by omega)
              rw [show t + 1 + (j - (t + 1)) = j by omega] at this
              rcases this with h | ⟨i', hi', h⟩
              · rcases List.mem_cons.mp h with h | h
                · exact Or.inr ⟨0, by omega, by simp [h]⟩
                · exact Or.inl h
              · exact Or.inr ⟨i' + 1, by omega, by simpa using h⟩

/-- The stimuli of a generator that has not generated any yet are the first distinct numbers of its source. -/
theorem history_firstDistinct (hd : m ≤ n) (h63 : m ≤ 63) {K : Nat} {g g' : Generator R} {sts : List Stim} (hg : g.generated = [])
    (h : History g (List.replicate K (.request (checkerReq n m .computationalBasis))) sts g') :
    ∃ f : Fin K ↪ Fin (2 ^ m), FirstDistinct (fun k => number R m k g.mt) f ∧ ∀ k : Fin K, sts[k.1]? = some (stimOf n m (f k)) := by
  obtain ⟨hl, _⟩ := history_length (g := g) h
  obtain ⟨vs, e1, e2, _, e4⟩ := history_values hd h63 h
  have hlen : vs.length = K := by rw [← hl, e1, List.length_map]
  have hget : ∀ k : Fin K, vs[k.1]? = some (vs[k.1]'(by rw [hlen]; exact k.2)) := fun k => List.getElem?_eq_getElem _
  have hlt : ∀ k : Fin K, vs[k.1]'(by rw [hlen]; exact k.2) < 2 ^ m := by
    intro k
    obtain ⟨t, ht, _⟩ := e4 _ _ (hget k)
    rw [← ht]
    exact drawn_lt R m t g.mt
  refine ⟨⟨fun k => ⟨vs[k.1]'(by rw [hlen]; exact k.2), hlt k⟩, ?_⟩, ?_, ?_⟩
  · intro i j hij
    have := Fin.mk.inj_iff.mp hij
    exact Fin.ext ((List.Nodup.getElem_inj_iff e2).mp this)
  · intro i
    obtain ⟨t, ht, hb⟩ := e4 _ _ (hget i)
    refine ⟨t, Fin.ext ht, ?_⟩
    intro j hj
    rcases hb j hj with h | ⟨i', hi', h⟩
    · rw [hg] at h; cases h
    · refine ⟨⟨i', lt_trans hi' i.2⟩, hi', Fin.ext ?_⟩
      rw [hget ⟨i', lt_trans hi' i.2⟩] at h
      exact (Option.some.inj h).symm
  · intro k
    rw [e1, List.getElem?_map, hget k]
    rfl

/-- If every number is delivered again and again, then as many requests return as there are classical inputs. -/
theorem history_exists (hd : m ≤ n) (h63 : m ≤ 63) : ∀ (K : Nat) (g : Generator R), g.generated = [] →
    (∀ (v : Fin (2 ^ m)) (k0 : Nat), ∃ k, k0 ≤ k ∧ number R m k g.mt = v) → K ≤ 2 ^ m →
    ∃ (sts : List Stim) (g' : Generator R),
      History g (List.replicate K (.request (checkerReq n m .computationalBasis))) sts g' ∧
      g'.generated.length = K ∧ ∃ j, g'.mt = after R ((1 <<< m) - 1) j g.mt := by
  have hrand : (checkerReq n m .computationalBasis).random = m := by simp [checkerReq, Req.random]; omega
  intro K
  induction K with
  | zero => intro g hg _ _; exact ⟨[], g, .nil g, by simp [hg], 0, rfl⟩
  | succ K ih =>
    intro g hg hio hK
    obtain ⟨sts, g', hh, hl, j, hj⟩ := ih g hg hio (by omega)
    have hfresh : ∃ v : Fin (2 ^ m), v.1 ∉ g'.generated := by
      by_contra hno
      push Not at hno
      have hsub : List.range (2 ^ m) ⊆ g'.generated := fun v hv => hno ⟨v, List.mem_range.mp hv⟩
      have := (List.subperm_of_subset List.nodup_range hsub).length_le
      rw [List.length_range] at this
      omega
    obtain ⟨v, hv⟩ := hfresh
    obtain ⟨k, hk, hkv⟩ := hio v j
    obtain ⟨u, mt, hdr⟩ := draw_iff.mpr ⟨k - j, (by
      rw [hj, drawn_add, show j + (k - j) = k by omega]
      have : drawn R ((1 <<< m) - 1) k g.mt = v.1 := congrArg Fin.val hkv
      rw [this]
      exact hv : drawn R ((1 <<< m) - 1) (k - j) g'.mt ∉ g'.generated)⟩
    obtain ⟨t, _, ht, _⟩ := draw_at hdr
    have hfill := fill_eq (total := n) (random := m) (fun i => u.testBit i) (maskBit u) (fun i hi => maskBit_eq (by omega)) hd
    have hgen := Generate.narrow g' (checkerReq n m .computationalBasis) u mt _ (by rfl) (by rw [hrand]; exact h63) (by rw [hrand]; exact hdr)
        (by rw [hrand]; exact hfill)
    have happ := History.append hh (.request _ _ _ _ _ _ _ hgen (.nil _))
    rw [← List.replicate_succ'] at happ
    refine ⟨_, _, happ, ?_, j + (t + 1), ?_⟩
    · simp [hl]
    · show mt = _
      rw [ht, hj, after_add]

/-! ## Classical inputs and numbers -/

/-- The classical input with the bits of `v` on the data qubits. -/
def inputOf (m n : Nat) (v : Fin (2 ^ m)) : Basis n := fun q => decide (q.1 < m) && v.1.testBit q.1

theorem inputOf_bijective (hd : m ≤ n) : Set.BijOn (inputOf m n) Set.univ {b : Basis n | AncillaFree m b} := by
  refine ⟨?_, ?_, ?_⟩
  · intro v _ q hq
    simp [inputOf, Nat.not_lt.mpr hq]
  · intro v _ u _ h
    refine Fin.ext (Nat.eq_of_testBit_eq fun i => ?_)
    by_cases hi : i < m
    · have := congrFun h ⟨i, by omega⟩
      simpa [inputOf, hi] using this
    · have hp : 2 ^ m ≤ 2 ^ i := Nat.pow_le_pow_right (by decide) (by omega)
      rw [Nat.testBit_lt_two_pow (lt_of_lt_of_le v.2 hp), Nat.testBit_lt_two_pow (lt_of_lt_of_le u.2 hp)]
  · intro b hb
    refine ⟨⟨Nat.ofBits (n := m) (fun i => b ⟨i.1, by omega⟩), Nat.ofBits_lt_two_pow _⟩, trivial, ?_⟩
    funext q
    by_cases hq : q.1 < m
    · simp [inputOf, hq, Nat.testBit_ofBits_lt _ q.1 hq]
    · have := hb q (by omega)
      simp [inputOf, hq, this]

open Classical in
/-- The numbers of the inputs on which the circuits agree. -/
noncomputable def agreeing (S : Setting m n) : Finset (Fin (2 ^ m)) := Finset.univ.filter fun v => ¬ Disagree S (inputOf m n v)

theorem mem_agreeing (S : Setting m n) (v : Fin (2 ^ m)) : v ∈ agreeing S ↔ ¬ Disagree S (inputOf m n v) := by
  classical
  exact Finset.mem_filter.trans ⟨fun h => h.2, fun h => ⟨Finset.mem_univ v, h⟩⟩

theorem agreeing_card (S : Setting m n) : (agreeing S).card = 2 ^ m - disagreements S := by
  classical
  have hset : {b : Basis n | Disagree S b} = inputOf m n '' {v | Disagree S (inputOf m n v)} := by
    ext b
    constructor
    · intro hb
      obtain ⟨v, _, rfl⟩ := (inputOf_bijective S.data).surjOn hb.1
      exact ⟨v, hb, rfl⟩
    · rintro ⟨v, hv, rfl⟩
      exact hv
  have hcard : disagreements S = (Finset.univ.filter fun v => Disagree S (inputOf m n v)).card := by
    unfold disagreements
    rw [hset, Set.InjOn.ncard_image ((inputOf_bijective S.data).injOn.mono (Set.subset_univ _)), ← Set.ncard_coe_finset]
    simp
  have := Finset.card_filter_add_card_filter_not (s := (Finset.univ : Finset (Fin (2 ^ m)))) (fun v => Disagree S (inputOf m n v))
  rw [Finset.card_univ, Fintype.card_fin] at this
  rw [hcard]
  unfold agreeing
  omega

theorem inputOf_free (hd : m ≤ n) (v : Fin (2 ^ m)) : AncillaFree m (inputOf m n v) := (inputOf_bijective hd).mapsTo (Set.mem_univ v)

/-! ## The verdict -/

/-- What the simulations of a run answer. -/
theorem simulates_numbers (S : Setting m n) (ht : S.stateType = .computationalBasis) (h63 : m ≤ 63) {env : Env} {K : Nat}
    {g : Generator R} (hg : g.generated = []) (h : SimulatesFrom S env K R g) :
    ∃ f : Fin K ↪ Fin (2 ^ m), FirstDistinct (fun k => number R m k g.mt) f ∧
      ∀ k : Fin K, ∃ c, env.sim k = some c ∧ c ≠ .noInformation ∧ (c ≠ .notEquivalent ↔ f k ∈ agreeing S) := by
  obtain ⟨g', sts, hh, hk⟩ := h
  rw [ht] at hh
  obtain ⟨f, hf, hst⟩ := history_firstDistinct S.data h63 hg hh
  refine ⟨f, hf, fun k => ?_⟩
  obtain ⟨x, prev, c, fuel, s, hden, hfu, hr, hc⟩ := hk k _ (hst k)
  have hx := denotes_basis hden
  have hb : (fun q : Fin n => ((List.range n).map fun i => decide (i < m) && (f k).1.testBit i).getD q.1 false) = inputOf m n (f k) := by
    funext q
    rw [List.getD_eq_getElem _ _ (by simp)]
    simp [inputOf]
  rw [hb] at hx
  obtain ⟨a1, a2⟩ := simulation_agrees S (by rw [hx]; exact basisState_normalised _) hfu hr
  refine ⟨c, hc, a1, ?_⟩
  rw [a2, hx]
  rw [mem_agreeing]
  simp [Disagree, inputOf_free S.data (f k)]

/-- No checker that proves equivalence answers `ProbablyEquivalent`. -/
theorem definite_answers (S : Setting m n) {env : Env}
    (hans : ∀ e : Event, FromEnv env e → e.kind = .alternating ∨ e.kind = .construction → Answer S true e.kind e.verdict) :
    ∀ c, env.alternating = .returns c ∨ env.construction = .returns c → c ≠ .probablyEquivalent := by
  rintro c hc rfl
  have : ∀ k, k = .alternating ∨ k = .construction → AnswerMeans S true k .probablyEquivalent → False := by
    rintro k hk ha
    rcases hk with rfl | rfl <;> rcases ha with ha | ha
    · simp at ha
    · rcases correct_cases ha with h | h | h <;> simp at h
    · simp at ha
    · rcases correct_cases ha with h | h | h <;> simp at h
  rcases hc with hc | hc
  · exact this .alternating (Or.inl rfl) (answer_means S (hans ⟨.alternating, .probablyEquivalent⟩ hc (Or.inl rfl)))
  · exact this .construction (Or.inr rfl) (answer_means S (hans ⟨.construction, .probablyEquivalent⟩ hc (Or.inr rfl)))

/-- A run in which some of the first `K` numbers belongs to an input on which the circuits do not agree does not report
`ProbablyEquivalent`. -/
theorem probably_equivalent_all_good (S : Setting m n) (ht : S.stateType = .computationalBasis) (h63 : m ≤ 63) {K : Nat} {g : Generator R}
    (hg : g.generated = []) {env : Env} {s s' : State} (h : RunWith S K R g env s s')
    (hans : ∀ c, env.alternating = .returns c ∨ env.construction = .returns c → c ≠ .probablyEquivalent)
    (hv : s'.results.equivalence = .probablyEquivalent) :
    ∃ f : Fin K ↪ Fin (2 ^ m), FirstDistinct (fun k => number R m k g.mt) f ∧ ∀ i, f i ∈ agreeing S := by
  obtain ⟨fuel, hrun⟩ := h.returned
  obtain ⟨f, hf, hans'⟩ := simulates_numbers S ht h63 hg h.stimuli
  obtain ⟨_, hp, _, hall⟩ := sequential_counters h.mode h.started h.performed hrun
  obtain ⟨_, _, hnc, hfull⟩ := probably_equivalent_meaning h.mode h.notime hrun hans hv
  have hev : ∀ k : Fin s'.results.performedSimulations, ∃ e ∈ s'.log, e.kind = .simulation ∧ env.sim k = some e.verdict := by
    intro k
    have hk := lt_of_lt_of_eq k.2 hp
    have hget := List.getElem?_eq_getElem hk
    have hmem := List.mem_filter.mp (List.getElem_mem hk)
    exact ⟨_, hmem.1, by simpa using hmem.2, hall k.1 _ hget⟩
  have hK : s'.results.performedSimulations = K := by
    rcases hfull with hfull | ⟨e, he, hk, hni⟩
    · rw [hfull, h.sims]
    · obtain ⟨i, hi, hlt⟩ := filter_get he hk
      obtain ⟨c, hc, hn, _⟩ := hans' ⟨i, by rw [hp]; exact hlt⟩
      rw [hall i e hi] at hc
      cases hc
      exact absurd hni hn
  have hgood : ∀ k, f k ∈ agreeing S := by
    intro k
    obtain ⟨c, hc, _, hiff⟩ := hans' k
    obtain ⟨e, he, hk, hce⟩ := hev k
    rw [hce] at hc
    cases hc
    refine hiff.mp fun hne => (hnc e he).1 ?_
    unfold Conclusive
    rw [hk]
    exact hne
  rw [← hK]
  exact ⟨f, hf, hgood⟩

/-- The verdict of a run with nothing but simulations. -/
theorem simulations_verdict (S : Setting m n) (ht : S.stateType = .computationalBasis) (h63 : m ≤ 63) {K : Nat} {g : Generator R}
    (hg : g.generated = []) {env : Env} {s s' : State} (h : RunWith S K R g env s s') (honly : OnlySimulations s)
    {f : Fin K ↪ Fin (2 ^ m)} (hf : FirstDistinct (fun k => number R m k g.mt) f) :
    (s'.results.equivalence = .probablyEquivalent ↔ ∀ i, f i ∈ agreeing S) ∧
    (s'.results.equivalence = .notEquivalent ↔ ¬ ∀ i, f i ∈ agreeing S) := by
  obtain ⟨fuel, hrun⟩ := h.returned
  obtain ⟨f', hf', hans⟩ := simulates_numbers S ht h63 hg h.stimuli
  obtain ⟨hx, hprov, _⟩ := sequential_verdict_explained h.mode hrun
  obtain ⟨_, hp, hle, hall⟩ := sequential_counters h.mode h.started h.performed hrun
  rw [h.sims] at hle
  have hpre : (Fin.castLEEmb hle).trans f = f' := firstDistinct_unique (firstDistinct_prefix hle hf) hf'
  have hkind : ∀ e ∈ s'.log, e.kind = .simulation := fun e he => honly.2 _ (hprov e he).2
  have hev : ∀ e ∈ s'.log, ∃ k : Fin s'.results.performedSimulations, e.verdict ≠ .noInformation ∧
      (e.verdict ≠ .notEquivalent ↔ f' k ∈ agreeing S) := by
    intro e he
    obtain ⟨i, hi, hlt⟩ := filter_get he (hkind e he)
    obtain ⟨c, hc, hn, hiff⟩ := hans ⟨i, by rw [hp]; exact hlt⟩
    rw [hall i e hi] at hc
    cases hc
    exact ⟨_, hn, hiff⟩
  by_cases hne : ∃ e ∈ s'.log, e.verdict = .notEquivalent
  · obtain ⟨e, he, hv⟩ := hne
    obtain ⟨k, _, hiff⟩ := hev e he
    have hno : ¬ ∀ i, f i ∈ agreeing S := by
      intro hA
      refine (hiff.mpr ?_) hv
      rw [← hpre]
      exact hA _
    have heq : s'.results.equivalence = .notEquivalent := by
      rw [hx.1 e he (by unfold Conclusive; rw [hkind e he]; exact hv), hv]
    rw [heq]
    exact ⟨⟨by simp, fun hA => absurd hA hno⟩, ⟨fun _ => hno, fun _ => rfl⟩⟩
  · have hne' : ∀ e ∈ s'.log, e.verdict ≠ .notEquivalent := fun e he hv => hne ⟨e, he, hv⟩
    have hfull : s'.results.performedSimulations = K := by
      rcases sequential_sims_complete h.mode honly.1 hrun with hf | ⟨e, he, _, hv | hv⟩ | ⟨hf, _⟩
      · rw [hf, h.sims]
      · exact absurd hv (hne' e he)
      · obtain ⟨k, hn, _⟩ := hev e he
        exact absurd hv hn
      · exact absurd hf h.notime
    have hA : ∀ i, f i ∈ agreeing S := by
      intro i
      have hi : i.1 < s'.results.performedSimulations := by rw [hfull]; exact i.2
      obtain ⟨c, hc, _, hiff⟩ := hans ⟨i.1, hi⟩
      have hget := List.getElem?_eq_getElem (lt_of_lt_of_eq hi hp)
      have hv := hall i.1 _ hget
      rw [hc] at hv
      injection hv with hv
      have hmem := List.mem_filter.mp (List.getElem_mem (lt_of_lt_of_eq hi hp))
      have hg := hiff.mp (by rw [hv]; exact hne' _ hmem.1)
      rw [← hpre] at hg
      exact hg
    have hncon : ∀ e ∈ s'.log, ¬ Conclusive e := by
      intro e he hc
      unfold Conclusive at hc
      rw [hkind e he] at hc
      exact hne' e he hc
    have hK : 0 < K := by
      have hmode := h.mode
      have : s.cfg.anythingToExecute = true := by
        unfold Mgr.mode at hmode
        split at hmode <;> simp_all
      simp only [Configuration.anythingToExecute, Bool.or_eq_true_iff] at this
      rw [← h.sims]
      have e1 := honly.2 .alternating
      have e2 := honly.2 .construction
      have e3 := honly.2 .zx
      simp only [Enabled] at e1 e2 e3
      simp_all
    have heq : s'.results.equivalence = .probablyEquivalent := by
      rw [hx.2 hncon]
      unfold evidence
      rw [if_pos, if_neg]
      · rintro ⟨e, he, hk, _⟩
        rw [hkind e he] at hk
        cases hk
      · have hpos : 0 < (s'.log.filter fun e => e.kind = .simulation).length := by rw [← hp, hfull]; exact hK
        have hmem := List.mem_filter.mp (List.getElem_mem hpos)
        obtain ⟨_, hn, _⟩ := hev _ hmem.1
        exact ⟨_, hmem.1, by simpa using hmem.2, hn, hne' _ hmem.1⟩
    rw [heq]
    exact ⟨⟨fun _ => hA, fun _ => rfl⟩, ⟨by simp, fun hn => absurd hA hn⟩⟩

/-! ## The probability of the verdict -/

section Probability
variable [MeasurableSpace R.σ] {μ : Measure R.σ}

/-- **C91**: with an idealised random source, a run of `K ≤ 2^m` simulations with classical stimuli and no other checker reports
`ProbablyEquivalent` with probability `(2^m - D)⋯(2^m - D - K + 1) / (2^m ⋯ (2^m - K + 1))`, where `D` is the number of classical inputs on
which the circuits do not agree, and `NotEquivalent` with the remaining probability. -/
theorem detection_probability (S : Setting m n) (ht : S.stateType = .computationalBasis) (h63 : m ≤ 63) (hμ : IdealSource R μ m)
    {K : Nat} (hK : K ≤ 2 ^ m) (seed : Nat) (env : R.σ → Env) (s s' : R.σ → State)
    (hrun : ∀ᵐ w ∂μ, RunWith S K R ⟨seed, w, []⟩ (env w) (s w) (s' w)) (honly : ∀ w, OnlySimulations (s w)) :
    μ {w | (s' w).results.equivalence = .probablyEquivalent} =
      ((2 ^ m - disagreements S).descFactorial K : ENNReal) / ((2 ^ m).descFactorial K : ENNReal) ∧
    μ {w | (s' w).results.equivalence = .notEquivalent} =
      1 - ((2 ^ m - disagreements S).descFactorial K : ENNReal) / ((2 ^ m).descFactorial K : ENNReal) := by
  have := hμ.prob
  have hcard : K ≤ Fintype.card (Fin (2 ^ m)) := by rw [Fintype.card_fin]; exact hK
  have hav := avoid_prob hμ hcard (agreeing S)
  rw [agreeing_card, Fintype.card_fin] at hav
  have hkey : ∀ᵐ w ∂μ, ((s' w).results.equivalence = .probablyEquivalent ↔
        ∃ f : Fin K ↪ Fin (2 ^ m), FirstDistinct (fun k => number R m k w) f ∧ ∀ i, f i ∈ agreeing S) ∧
      ((s' w).results.equivalence = .notEquivalent ↔
        ¬ ∃ f : Fin K ↪ Fin (2 ^ m), FirstDistinct (fun k => number R m k w) f ∧ ∀ i, f i ∈ agreeing S) := by
    filter_upwards [hrun, firstDistinct_ae hμ hcard] with w hw ⟨f, hf⟩
    obtain ⟨h1, h2⟩ := simulations_verdict S ht h63 rfl hw (honly w) hf
    have hiff : (∃ f : Fin K ↪ Fin (2 ^ m), FirstDistinct (fun k => number R m k w) f ∧ ∀ i, f i ∈ agreeing S) ↔
        ∀ i, f i ∈ agreeing S := by
      constructor
      · rintro ⟨f', hf', hA⟩
        rw [firstDistinct_unique hf hf']
        exact hA
      · exact fun hA => ⟨f, hf, hA⟩
    rw [hiff]
    exact ⟨h1, h2⟩
  have hmeas := measurable_avoid hμ (K := K) (agreeing S)
  constructor
  · rw [← hav]
    refine measure_congr ?_
    filter_upwards [hkey] with w hw
    exact propext hw.1
  · rw [← hav, ← prob_compl_eq_one_sub hmeas]
    refine measure_congr ?_
    filter_upwards [hkey] with w hw
    exact propext hw.2

/-- **C91** (any checkers): whatever other checkers are configured, the probability of `ProbablyEquivalent` is at most that, and at most
`((2^m - D) / 2^m)^K`. -/
theorem detection_bound (S : Setting m n) (ht : S.stateType = .computationalBasis) (h63 : m ≤ 63) (hμ : IdealSource R μ m)
    {K : Nat} (hK : K ≤ 2 ^ m) (seed : Nat) (env : R.σ → Env) (s s' : R.σ → State)
    (hrun : ∀ᵐ w ∂μ, RunWith S K R ⟨seed, w, []⟩ (env w) (s w) (s' w))
    (hans : ∀ (w : R.σ) (e : Event), FromEnv (env w) e → e.kind = .alternating ∨ e.kind = .construction → Answer S true e.kind e.verdict) :
    μ {w | (s' w).results.equivalence = .probablyEquivalent} ≤
      ((2 ^ m - disagreements S).descFactorial K : ENNReal) / ((2 ^ m).descFactorial K : ENNReal) ∧
    μ {w | (s' w).results.equivalence = .probablyEquivalent} ≤ (((2 ^ m - disagreements S : Nat) : ENNReal) / (2 ^ m : Nat)) ^ K := by
  have hcard : K ≤ Fintype.card (Fin (2 ^ m)) := by rw [Fintype.card_fin]; exact hK
  have hav := avoid_prob hμ hcard (agreeing S)
  rw [agreeing_card, Fintype.card_fin] at hav
  have h1 : μ {w | (s' w).results.equivalence = .probablyEquivalent} ≤
      ((2 ^ m - disagreements S).descFactorial K : ENNReal) / ((2 ^ m).descFactorial K : ENNReal) := by
    rw [← hav]
    refine measure_mono_ae ?_
    filter_upwards [hrun] with w hw hv
    exact probably_equivalent_all_good S ht h63 rfl hw (definite_answers S (hans w)) hv
  exact ⟨h1, h1.trans (descFactorial_ratio_le (Nat.sub_le _ _) K)⟩

end Probability

/-! ## For every random source -/

/-- **C91** (every random source): a run of more simulations than there are classical inputs on which the circuits agree does not report
`ProbablyEquivalent`. -/
theorem enough_simulations_detect (S : Setting m n) (ht : S.stateType = .computationalBasis) (h63 : m ≤ 63) {K : Nat} {g : Generator R}
    (hg : g.generated = []) {env : Env} {s s' : State} (h : RunWith S K R g env s s')
    (hans : ∀ e : Event, FromEnv env e → e.kind = .alternating ∨ e.kind = .construction → Answer S true e.kind e.verdict)
    (hmany : 2 ^ m - disagreements S < K) : s'.results.equivalence ≠ .probablyEquivalent := by
  intro hv
  obtain ⟨f, _, hA⟩ := probably_equivalent_all_good S ht h63 hg h (definite_answers S hans) hv
  have : Fintype.card (Fin K) ≤ (agreeing S).card := by
    rw [← Finset.card_univ, ← Finset.card_map f]
    refine Finset.card_le_card fun v hv => ?_
    obtain ⟨i, _, rfl⟩ := Finset.mem_map.mp hv
    exact hA i
  rw [Fintype.card_fin, agreeing_card] at this
  omega

/-- **C91** (every random source): if nothing else is configured such a run reports `NotEquivalent`. -/
theorem enough_simulations_decide (S : Setting m n) (ht : S.stateType = .computationalBasis) (h63 : m ≤ 63) {K : Nat} {g : Generator R}
    (hg : g.generated = []) {env : Env} {s s' : State} (h : RunWith S K R g env s s') (honly : OnlySimulations s)
    (hmany : 2 ^ m - disagreements S < K) : s'.results.equivalence = .notEquivalent := by
  obtain ⟨fuel, hrun⟩ := h.returned
  obtain ⟨f, _, hans⟩ := simulates_numbers S ht h63 hg h.stimuli
  obtain ⟨hx, hprov, _⟩ := sequential_verdict_explained h.mode hrun
  obtain ⟨_, hp, _, hall⟩ := sequential_counters h.mode h.started h.performed hrun
  have hkind : ∀ e ∈ s'.log, e.kind = .simulation := fun e he => honly.2 _ (hprov e he).2
  by_cases hne : ∃ e ∈ s'.log, e.verdict = .notEquivalent
  · obtain ⟨e, he, hv⟩ := hne
    rw [hx.1 e he (by unfold Conclusive; rw [hkind e he]; exact hv), hv]
  · exfalso
    have hfull : s'.results.performedSimulations = K := by
      rcases sequential_sims_complete h.mode honly.1 hrun with hf | ⟨e, he, _, hv | hv⟩ | ⟨hf, _⟩
      · rw [hf, h.sims]
      · exact absurd ⟨e, he, hv⟩ hne
      · obtain ⟨i, hi, hlt⟩ := filter_get he (hkind e he)
        obtain ⟨c, hc, hn, _⟩ := hans ⟨i, by rw [hp]; exact hlt⟩
        rw [hall i e hi] at hc
        cases hc
        exact absurd hv hn
      · exact absurd hf h.notime
    have hA : ∀ i, f i ∈ agreeing S := by
      intro i
      obtain ⟨c, hc, _, hiff⟩ := hans i
      have hget := List.getElem?_eq_getElem (lt_of_lt_of_eq i.2 hp)
      have hv := hall i.1 _ hget
      rw [hc] at hv
      injection hv with hv
      have hmem := List.mem_filter.mp (List.getElem_mem (lt_of_lt_of_eq i.2 hp))
      exact hiff.mp (by rw [hv]; exact fun hv => hne ⟨_, hmem.1, hv⟩)
    have : Fintype.card (Fin s'.results.performedSimulations) ≤ (agreeing S).card := by
      rw [← Finset.card_univ, ← Finset.card_map f]
      refine Finset.card_le_card fun v hv => ?_
      obtain ⟨i, _, rfl⟩ := Finset.mem_map.mp hv
      exact hA i
    rw [Fintype.card_fin, agreeing_card, hfull] at this
    omega

end QCEC.Props
