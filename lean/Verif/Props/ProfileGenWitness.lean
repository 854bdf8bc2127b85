import Verif.Props.ProfileGen
/-!
# C76: a concrete generation, and costs that turn negative
-/
namespace QCEC.Props.ProfileGenWitness
open QCEC.ProfileGen QCEC.Recurrence QCEC.Py QCEC.Spec.ProfileGen

/-- Costs that grow with the number `c` of controls, ever more slowly: `c (40 - c)`. -/
def slowing (call : GateCall) : Nat := (call.width - 1) * (40 - (call.width - 1))

/-- The same as a sequence from five controls on. -/
def parabola (i : Nat) : Int := (i + 5) * (35 - i)

theorem measured_slowing (c : Nat) (h : c ≤ 11) : (slowing (measured .noAncilla "p" c) : Int) = c * (40 - c) := by
  interval_cases c <;> decide +kernel

/-- The measured costs grow strictly. -/
theorem slowing_increases (c : Nat) (h : c < 11) : slowing (measured .noAncilla "p" c) < slowing (measured .noAncilla "p" (c + 1)) := by
  interval_cases c <;> decide +kernel

theorem largest_slowing : largest slowing .noAncilla "p" = terms parabola 7 := by
  have hm : measuredCosts slowing .noAncilla "p" = (List.range 12).map fun c : Nat => (c * (40 - c) : Int) := by
    refine List.map_congr_left fun c hc => ?_
    rw [List.mem_range] at hc
    exact measured_slowing c (by omega)
  unfold largest
  rw [hm, List.mergeSort_of_pairwise (by decide +kernel)]
  decide +kernel

theorem parabola_follows : Follows parabola (o := 3) ![1, -3, 3] := by
  intro n
  rw [Fin.sum_univ_three]
  simp [parabola]
  ring

theorem coefficients_parabola : coefficients (terms parabola 7) 3 = ⟨3, ![1, -3, 3]⟩ := by
  have h3 : checkRecurrence (terms parabola 7) 3 = some ![1, -3, 3] :=
    recurrence_complete parabola_follows (by omega) (by
      rw [Matrix.det_fin_three]; simp [parabola]; norm_num)
  unfold coefficients
  rw [firstFit_at h3 3 1 (by omega) (by omega)]
  · rfl
  · intro o h1 h2
    rcases h : checkRecurrence (terms parabola 7) o with _ | c
    · rfl
    exfalso
    obtain ⟨-, a, b⟩ := recurrence_sound h
    have : o = 1 ∨ o = 2 := by omega
    rcases this with rfl | rfl
    · have a0 := a 0 (by omega)
      have b1 := b 1 (by decide +kernel)
      rw [Fin.sum_univ_one] at a0 b1
      simp [terms, parabola, List.range_succ] at a0 b1
      have hc : c 0 = 204 / 175 := by linarith
      rw [hc] at b1
      norm_num [abs_le] at b1
    · have a0 := a 0 (by omega)
      have a1 := a 1 (by omega)
      have b2 := b 4 (by decide +kernel)
      rw [Fin.sum_univ_two] at a0 a1 b2
      simp [terms, parabola, List.range_succ] at a0 a1 b2
      norm_num at a0 a1 b2
      have e : c 0 = -1137 / 1191 := by linarith
      have f : c 1 = (231 - 175 * c 0) / 204 := by linarith
      rw [f, e] at b2
      norm_num [abs_le] at b2

/-- The continuation consists of further terms of the parabola, all 116 of them. -/
theorem continuation_parabola {vs : List Int} (h : Continues slowing .noAncilla "p" vs) : vs.length = 116 ∧ ∀ j, j < 116 → vs[j]? = some (parabola (7 + j)) := by
  obtain ⟨h1, h2, h3⟩ := h
  rw [largest_slowing, coefficients_parabola] at h2 h3
  have hall : ∀ j, j ≤ vs.length → vs.take j = (List.range' 7 j).map parabola := by
    intro j
    induction j with
    | zero => intro _; simp
    | succ j ih =>
      intro hj
      obtain ⟨t, a, b, -⟩ := h2 j (by omega)
      have hp : terms parabola 7 ++ (List.range' 7 j).map parabola = terms parabola (7 + j) := by
        rw [terms, terms, ← List.map_append, List.range_eq_range', List.range_eq_range']
        have := List.range'_append_1 (s := 0) (m := 7) (n := j)
        rw [Nat.zero_add] at this
        rw [this]
      rw [ih (by omega), hp] at b
      have := nextTerm_follows parabola_follows [] (m := 7 + j) (by omega)
      rw [List.nil_append, b] at this
      rw [List.take_add_one, a, ih (by omega), List.range'_concat]
      simp at this
      simp [this]
  have hlen : vs.length = 116 := by
    by_contra hne
    obtain ⟨t, a, b⟩ := h3 (by omega)
    have hp : terms parabola 7 ++ vs = terms parabola (7 + vs.length) := by
      have := hall vs.length (le_refl _)
      rw [List.take_length] at this
      rw [this, terms, terms, ← List.map_append, List.range_eq_range', List.range_eq_range']
      have e := List.range'_append_1 (s := 0) (m := 7) (n := vs.length)
      rw [Nat.zero_add] at e
      simp only [List.length_map, List.length_range']
      rw [e]
    have := nextTerm_follows parabola_follows [] (m := 7 + vs.length) (by omega)
    rw [List.nil_append, ← hp, a] at this
    simp only [Option.some.injEq] at this
    rw [this] at b
    unfold parabola at b
    push_cast at b
    nlinarith
  refine ⟨hlen, fun j hj => ?_⟩
  have := hall 116 (by omega)
  rw [List.take_of_length_le (by omega)] at this
  rw [this]
  simp [hj]

/-- Distinct operation types for the names. -/
def ops (s : String) : Option OpType := if s ∈ names then some (.other (names.idxOf s)) else none

theorem ops_known : ∀ g ∈ names, (ops g).isSome := by decide +kernel

theorem ops_inj : ∀ g ∈ names, ∀ g' ∈ names, ops g = ops g' → g = g' := by decide +kernel

/-- **C76, limit.** Costs that grow with every control up to the last measured one can be continued to negative costs, and the reader takes these as huge numbers: a
phase gate with 50 controls is read as 2^64 - 500, whereas with 30 controls it costs 300; so is a T gate. -/
theorem generated_negative : (∀ c, c < 11 → slowing (measured .noAncilla "p" c) < slowing (measured .noAncilla "p" (c + 1))) ∧
    ∃ d, generateProfile slowing .noAncilla = some d ∧ lookup d ("p", 11) = some 319 ∧ lookup d ("p", 30) = some 300 ∧ lookup d ("p", 50) = some (-500) ∧
      lookup d ("t", 50) = some (-500) ∧
      ∃ txt t, generateProfileFile slowing "profiles/" "1" .noAncilla ", Qiskit version: 1.2.0" = some ("profiles/qiskit_O1_noancilla.profile", txt) ∧
        populateFromFile ops (some txt) = .ok t ∧ (∀ op, ops "p" = some op → t.find (op, 30) = some 300 ∧ t.find (op, 50) = some (2 ^ 64 - 500)) ∧
        ∀ op, ops "t" = some op → t.find (op, 50) = some (2 ^ 64 - 500) := by
  refine ⟨fun c h => slowing_increases c h, ?_⟩
  obtain ⟨d, vp, vx, h1, -, h3, -, -, h6, h7, h8, -⟩ := generated_profile slowing .noAncilla
  obtain ⟨-, hv⟩ := continuation_parabola h3
  have h50 : lookup d ("p", 50) = some (-500) := by
    rw [show (50 : Nat) = 12 + 38 from rfl, (h7 38).1, hv 38 (by omega)]
    decide +kernel
  have h30 : lookup d ("p", 30) = some 300 := by
    rw [show (30 : Nat) = 12 + 18 from rfl, (h7 18).1, hv 18 (by omega)]
    decide +kernel
  have ht50 : lookup d ("t", 50) = some (-500) := by
    have hno : ∀ call, (("t", 50), call) ∉ small := by
      intro call hc
      have : ∀ e ∈ small, e.1.2 ≤ 1 := by decide +kernel
      have := this _ hc
      dsimp only at this
      omega
    rw [h8 "t" (by decide) 50 hno, h50]
  refine ⟨d, h1, ?_, h30, h50, ht50, ?_⟩
  · rw [(h6 11 (le_refl _)).1, measured_slowing 11 (le_refl _)]
    decide +kernel
  · obtain ⟨d', txt, t, e1, e2, e3, e4, -⟩ := generated_file_read slowing .noAncilla "profiles/" "1" ", Qiskit version: 1.2.0"
      ⟨by decide +kernel, by decide +kernel, by decide +kernel⟩ ops ops_known ops_inj
    rw [h1] at e1
    cases e1
    have a500 : asSize (-500) = some (2 ^ 64 - 500) := by decide +kernel
    have a300 : asSize 300 = some 300 := by decide +kernel
    refine ⟨txt, t, ?_, e3, fun op hop => ⟨?_, ?_⟩, fun op hop => ?_⟩
    · rw [e2, show "profiles/" ++ profileName "1" AncillaMode.noAncilla = "profiles/qiskit_O1_noancilla.profile" by decide +kernel]
    · rw [e4 "p" (by decide) op hop, h30, Option.bind_some, a300]
    · rw [e4 "p" (by decide) op hop, h50, Option.bind_some, a500]
    · rw [e4 "t" (by decide) op hop, ht50, Option.bind_some, a500]

/-- Costs that double with every control. -/
def doubling (call : GateCall) : Nat := 2 ^ call.width % 2 ^ 64

theorem doubling_largest (g : String) (hg : g = "p" ∨ g = "x") : largest doubling .noAncilla g = terms (fun i => 2 ^ (i + 6)) 7 := by
  have hm : measuredCosts doubling .noAncilla g = (List.range 12).map fun c : Nat => (2 ^ (c + 1) : Int) := by
    refine List.map_congr_left fun c hc => ?_
    rw [List.mem_range] at hc
    rcases hg with rfl | rfl <;> interval_cases c <;> decide +kernel
  unfold largest
  rw [hm, List.mergeSort_of_pairwise (by decide +kernel)]
  decide +kernel

theorem doubling_plain (g : String) (hg : g = "p" ∨ g = "x") : Plain doubling .noAncilla g := by
  left
  rw [doubling_largest g hg]
  exact ⟨![2], recurrence_complete (f := fun i => 2 ^ (i + 6)) (by intro n; simp; ring) (by omega) (by simp)⟩

/-- The hypotheses of `generated_read_exact_partial` are met. -/
example : ∃ d txt t, generateProfile doubling .noAncilla = some d ∧
    generateProfileFile doubling "profiles/" "1" .noAncilla "" = some ("profiles/" ++ profileName "1" .noAncilla, txt) ∧ populateFromFile ops (some txt) = .ok t ∧
    ∀ g ∈ names, ∀ op, ops g = some op → ∀ c, (t.find (op, c)).map (fun n : Nat => (n : Int)) = lookup d (g, c) :=
  generated_read_exact_partial (doubling_plain "p" (Or.inl rfl)) (doubling_plain "x" (Or.inr rfl)) (fun call => Nat.mod_lt _ (by norm_num)) "profiles/" "1" ""
    ⟨by decide +kernel, by decide +kernel, by decide +kernel⟩ ops ops_known ops_inj

/-- Costs that grow quadratically with the number of controls. -/
def squares (call : GateCall) : Nat := call.width ^ 2 % 2 ^ 64

theorem squares_largest (g : String) (hg : g = "p" ∨ g = "x") : largest squares .noAncilla g = [36, 49, 64, 81, 100, 121, 144] := by
  have hm : measuredCosts squares .noAncilla g = (List.range 12).map fun c : Nat => (((c + 1) ^ 2 : Nat) : Int) := by
    refine List.map_congr_left fun c hc => ?_
    rw [List.mem_range] at hc
    rcases hg with rfl | rfl <;> interval_cases c <;> decide +kernel
  unfold largest
  rw [hm, List.mergeSort_of_pairwise (by decide +kernel)]
  decide +kernel

theorem squares_quadratic : Quadratic [36, 49, 64, 81, 100, 121, 144] := by
  refine ⟨?_, ?_, ?_, by decide⟩
  · by_contra hne
    obtain ⟨c, hc⟩ := Option.ne_none_iff_exists'.1 hne
    obtain ⟨-, a, b⟩ := recurrence_sound hc
    have a0 := a 0 (by omega)
    have b1 := b 1 (by simp)
    simp [Fin.sum_univ_one] at a0 b1
    rw [abs_le] at b1
    linarith [b1.1, b1.2]
  · by_contra hne
    obtain ⟨c, hc⟩ := Option.ne_none_iff_exists'.1 hne
    obtain ⟨-, a, b⟩ := recurrence_sound hc
    have a0 := a 0 (by omega)
    have a1 := a 1 (by omega)
    have b2 := b 2 (by simp)
    simp [Fin.sum_univ_two] at a0 a1 b2
    rw [abs_le] at b2
    linarith [b2.1, b2.2]
  · have h := recurrence_complete (c := ![1, -3, 3]) (f := fun i => (i + 6) ^ 2) (len := 7)
      (by intro n; simp [Fin.sum_univ_three]; ring) (by omega) (by simp [Matrix.det_fin_three]; try norm_num)
    exact h

/-- **C77**: costs that grow quadratically are continued without becoming negative. -/
theorem squares_plain (g : String) (hg : g = "p" ∨ g = "x") : Plain squares .noAncilla g := by
  refine .inr (.inr (.inr (.inr ?_)))
  rw [squares_largest g hg]
  exact squares_quadratic

theorem squares_nonneg {d : Data} (hd : generateProfile squares .noAncilla = some d) (k : String × Nat) (v : Int) (hv : lookup d k = some v) : 0 ≤ v :=
  generated_nonneg_partial (squares_plain "p" (Or.inl rfl)) (squares_plain "x" (Or.inr rfl)) hd k v hv

/-- Costs that alternately more and less than double: a recurrence without negative coefficients. -/
theorem uneven_additive : Additive [9, 15, 33, 63, 129, 255, 513] := by
  refine ⟨2, ![2, 1], by omega, by omega, ?_, ?_, ?_⟩
  · have h := recurrence_complete (c := ![2, 1]) (f := fun i => 2 ^ (i + 3) + (-1) ^ i) (len := 7)
      (by intro n; simp [Fin.sum_univ_two]; ring) (by omega) (by simp [Matrix.det_fin_two]; try norm_num)
    exact h
  · intro o h1 h2
    obtain rfl : o = 1 := by omega
    by_contra hne
    obtain ⟨c, hc⟩ := Option.ne_none_iff_exists'.1 hne
    obtain ⟨-, a, b⟩ := recurrence_sound hc
    have a0 := a 0 (by omega)
    have b1 := b 1 (by simp)
    simp [Fin.sum_univ_one] at a0 b1
    rw [abs_le] at b1
    linarith [b1.1, b1.2]
  · intro i
    fin_cases i <;> simp

end QCEC.Props.ProfileGenWitness
