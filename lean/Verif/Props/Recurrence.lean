import Mathlib.Tactic.Linarith
import Mathlib.Tactic.Ring
import Mathlib.Tactic.FieldSimp
import Mathlib.Tactic.NormNum
import Mathlib.Tactic.IntervalCases
import Mathlib.LinearAlgebra.Matrix.Determinant.Basic
import Verif.Model.Recurrence
import Verif.Model.Profile
/-!
# C52: extrapolation of gate costs
-/
namespace QCEC.Props
open QCEC.Recurrence

/-- The sequence satisfies the linear recurrence with coefficients `c`: every term from the `o`-th on is the combination of the `o` terms before. -/
def Follows (f : Nat → Int) {o : Nat} (c : Fin o → ℚ) : Prop := ∀ n, (f (n + o) : ℚ) = ∑ j : Fin o, c j * f (n + j)

/-- The first `len` terms. -/
def terms (f : Nat → Int) (len : Nat) : List Int := (List.range len).map f

theorem terms_get {f : Nat → Int} {len i : Nat} (h : i < len) : (terms f len).getD i 0 = f i := by
  simp [terms, List.getD_eq_getElem?_getD, h]

/-- **C52.** Coefficients are only reported if the whole sequence follows them up to 1/100, and its first terms exactly. -/
theorem recurrence_sound {seq : List Int} {o : Nat} {c : Fin o → ℚ} (h : checkRecurrence seq o = some c) :
    2 * o < seq.length ∧
    (∀ n, n < o → ∑ j : Fin o, c j * (seq.getD (n + j) 0 : ℚ) = (seq.getD (n + o) 0 : ℚ)) ∧
    ∀ n, n + o < seq.length → |∑ j : Fin o, c j * (seq.getD (n + j) 0 : ℚ) - (seq.getD (n + o) 0 : ℚ)| ≤ 1 / 100 := by
  unfold checkRecurrence at h
  split at h
  · cases h
  rename_i hlen
  split at h
  · cases h
  rename_i hdet
  dsimp only at h
  split at h
  swap
  · cases h
  rename_i hfit
  simp only [Option.some.injEq] at h
  have hmul : (mat seq o).mulVec c = rhs seq o := by
    rw [← h, Matrix.mulVec_mulVec, Matrix.mul_nonsing_inv _ (isUnit_iff_ne_zero.2 hdet), Matrix.one_mulVec]
  have hfirst : ∀ n, n < o → ∑ j : Fin o, c j * (seq.getD (n + j) 0 : ℚ) = (seq.getD (n + o) 0 : ℚ) := by
    intro n hn
    have := congrFun hmul ⟨n, hn⟩
    simp only [Matrix.mulVec, dotProduct, mat, rhs] at this
    rw [← this]
    exact Finset.sum_congr rfl fun j _ => mul_comm _ _
  refine ⟨by omega, hfirst, fun n hn => ?_⟩
  by_cases hno : n < o
  · rw [hfirst n hno]; norm_num
  · rw [h] at hfit
    simp only [fits, List.all_eq_true, List.mem_range'_1, decide_eq_true_eq] at hfit
    have := hfit (n + o) (by omega)
    simpa only [predict, Nat.add_sub_cancel] using this

/-- **C52.** A sequence that follows a recurrence exactly and determines it is recognised, with exactly its coefficients. -/
theorem recurrence_complete {f : Nat → Int} {o len : Nat} {c : Fin o → ℚ} (hf : Follows f c) (hlen : 2 * o < len)
    (hdet : (Matrix.of fun i j : Fin o => (f (i + j) : ℚ)).det ≠ 0) : checkRecurrence (terms f len) o = some c := by
  have hl : (terms f len).length = len := by simp [terms]
  have hmat : mat (terms f len) o = Matrix.of fun i j : Fin o => (f (i + j) : ℚ) := by
    ext i j
    simp only [mat, Matrix.of_apply]
    rw [terms_get (by omega)]
  have hmul : (mat (terms f len) o).mulVec c = rhs (terms f len) o := by
    ext i
    simp only [hmat, Matrix.mulVec, dotProduct, Matrix.of_apply, rhs]
    rw [terms_get (by omega), hf]
    exact Finset.sum_congr rfl fun j _ => mul_comm _ _
  have hc : (mat (terms f len) o)⁻¹.mulVec (rhs (terms f len) o) = c := by
    rw [← hmul, Matrix.mulVec_mulVec, Matrix.nonsing_inv_mul _ (isUnit_iff_ne_zero.2 (by rw [hmat]; exact hdet)), Matrix.one_mulVec]
  have hfit : fits (terms f len) c = true := by
    simp only [fits, List.all_eq_true, List.mem_range'_1, hl]
    intro i hi
    rw [decide_eq_true_eq]
    unfold predict
    have e1 : ∑ j : Fin o, c j * ((terms f len).getD (i - o + j) 0 : ℚ) = ∑ j : Fin o, c j * f (i - o + j) :=
      Finset.sum_congr rfl fun j _ => by rw [terms_get (by omega)]
    rw [e1, ← hf, terms_get (by omega), show i - o + o = i by omega]
    norm_num
  unfold checkRecurrence
  rw [if_neg (by omega), if_neg (by rw [hmat]; exact hdet)]
  simp only [hc, hfit, if_true]

theorem roundEven_int (n : Int) : roundEven (n : ℚ) = n := by
  simp [roundEven]

theorem roundEven_spec (p : ℚ) : |(roundEven p : ℚ) - p| ≤ 1 / 2 ∧ (|(roundEven p : ℚ) - p| = 1 / 2 → roundEven p % 2 = 0) := by
  have h1 := Int.floor_le p
  have h2 := Int.lt_floor_add_one p
  unfold roundEven
  split
  · rename_i h
    have : |((⌊p⌋ : Int) : ℚ) - p| = p - ⌊p⌋ := by rw [abs_sub_comm, abs_of_nonneg (by linarith)]
    rw [this]
    exact ⟨by linarith, fun e => by linarith⟩
  · split
    · rename_i h h'
      have : |((⌊p⌋ + 1 : Int) : ℚ) - p| = ⌊p⌋ + 1 - p := by push_cast; rw [abs_of_nonneg (by linarith)]
      rw [this]
      exact ⟨by linarith, fun e => by linarith⟩
    · rename_i h h'
      have hp : p - ⌊p⌋ = 1 / 2 := le_antisymm (not_lt.1 h') (not_lt.1 h)
      split
      · rename_i he
        refine ⟨?_, fun _ => he⟩
        rw [abs_sub_comm, hp, abs_of_nonneg (by norm_num)]
      · rename_i he
        refine ⟨?_, fun _ => by omega⟩
        have : ((⌊p⌋ + 1 : Int) : ℚ) - p = 1 / 2 := by push_cast; linarith
        rw [this, abs_of_nonneg (by norm_num)]

/-- At most one integer is nearest, if ties go to the even one. -/
theorem nearest_unique {p : ℚ} {a b : Int} (ha : |(a : ℚ) - p| ≤ 1 / 2 ∧ (|(a : ℚ) - p| = 1 / 2 → a % 2 = 0))
    (hb : |(b : ℚ) - p| ≤ 1 / 2 ∧ (|(b : ℚ) - p| = 1 / 2 → b % 2 = 0)) : a = b := by
  have key : ∀ a b : Int, (|(a : ℚ) - p| ≤ 1 / 2 ∧ (|(a : ℚ) - p| = 1 / 2 → a % 2 = 0)) →
      (|(b : ℚ) - p| ≤ 1 / 2 ∧ (|(b : ℚ) - p| = 1 / 2 → b % 2 = 0)) → ¬ a < b := by
    intro a b ha hb hlt
    have h1 := abs_le.1 ha.1
    have h2 := abs_le.1 hb.1
    have h3 : (a : ℚ) + 1 ≤ b := by exact_mod_cast hlt
    have e1 : (a : ℚ) - p = -(1 / 2) := by linarith [h1.1, h2.2]
    have e2 : (b : ℚ) - p = 1 / 2 := by linarith [h1.1, h2.2]
    have a0 := ha.2 (by rw [e1, abs_neg, abs_of_nonneg (by norm_num)])
    have b0 := hb.2 (by rw [e2, abs_of_nonneg (by norm_num)])
    have e3 : (b : ℚ) = a + 1 := by linarith
    have e4 : b = a + 1 := by exact_mod_cast e3
    omega
  rcases lt_trichotomy a b with h | h | h
  · exact absurd h (key a b ha hb)
  · exact h
  · exact absurd h (key b a hb ha)

/-- **C52.** Whatever the coefficients, a continued term is the integer nearest to the value of the recurrence; of two such integers it is
the even one. -/
theorem next_term_nearest {o : Nat} {c : Fin o → ℚ} {seq : List Int} (ho : o ≤ seq.length) (t : Int) :
    nextTerm ⟨o, c⟩ seq = some t ↔
      |(t : ℚ) - ∑ j : Fin o, c j * (seq.getD (seq.length - o + j) 0 : ℚ)| ≤ 1 / 2 ∧
      (|(t : ℚ) - ∑ j : Fin o, c j * (seq.getD (seq.length - o + j) 0 : ℚ)| = 1 / 2 → t % 2 = 0) := by
  unfold nextTerm
  rw [if_pos ho, Option.some.injEq]
  constructor
  · intro h
    rw [← h]
    exact roundEven_spec _
  · intro h
    exact nearest_unique (roundEven_spec _) h

/-- Two ties: 1/2 becomes 0, 3/2 becomes 2. -/
example : nextTerm ⟨1, ![1 / 2]⟩ [1] = some 0 ∧ nextTerm ⟨1, ![1 / 2]⟩ [3] = some 2 := by
  constructor
  · rw [next_term_nearest (by decide)]; norm_num
  · rw [next_term_nearest (by decide)]; norm_num

theorem nextTerm_follows {f : Nat → Int} {o : Nat} {c : Fin o → ℚ} (hf : Follows f c) (pre : List Int) {m : Nat} (hm : o ≤ m) :
    nextTerm ⟨o, c⟩ (pre ++ terms f m) = some (f m) := by
  have hl : (pre ++ terms f m).length = pre.length + m := by simp [terms]
  unfold nextTerm
  rw [if_pos (by simp only [hl]; omega)]
  have : ∑ j : Fin o, c j * ((pre ++ terms f m).getD ((pre ++ terms f m).length - o + j) 0 : ℚ) = (f m : ℚ) := by
    have e := hf (m - o)
    rw [show m - o + o = m by omega] at e
    rw [e]
    refine Finset.sum_congr rfl fun j _ => ?_
    rw [hl, List.getD_eq_getElem?_getD, List.getElem?_append_right (by omega), ← List.getD_eq_getElem?_getD, terms_get (by omega), show pre.length + m - o + j - pre.length = m - o + j by omega]
  simp only [this, roundEven_int]

theorem terms_succ (f : Nat → Int) (m : Nat) : terms f m ++ [f m] = terms f (m + 1) := by simp [terms, List.range_succ]

theorem lookup_assign (d : Data) (k k' : String × Nat) (v : Int) : lookup (assign d k v) k' = if k' = k then some v else lookup d k' := by
  unfold assign
  split
  · rename_i h
    induction d with
    | nil => simp at h
    | cons e d ih =>
      simp only [List.map_cons]
      by_cases he : e.1 = k
      · by_cases hk : k' = k
        · subst hk
          simp [lookup, he]
        · simp only [hk, if_false]
          by_cases hd : d.any (fun e => e.1 == k) = true
          · have := ih hd
            simp only [hk, if_false, lookup] at this
            simp only [lookup, he, List.find?_cons, beq_self_eq_true, if_true]
            have hne : (k == k') = false := by simpa using fun h => hk h.symm
            simp only [hne]
            exact this
          · have hid : d.map (fun e => if e.1 == k then (k, v) else e) = d := by
              conv_rhs => rw [← List.map_id d]
              refine List.map_congr_left fun e' he' => ?_
              have : e'.1 ≠ k := fun h => hd (List.any_eq_true.2 ⟨e', he', by simpa using h⟩)
              simp [this]
            simp only [hid, lookup, he, List.find?_cons, beq_self_eq_true, if_true]
            have hne : (k == k') = false := by simpa using fun h => hk h.symm
            simp [hne]
      · have hd : d.any (fun e => e.1 == k) = true := by
          simpa [he] using h
        have := ih hd
        simp only [lookup, List.find?_cons] at this ⊢
        have hb : (e.1 == k) = false := by simpa using he
        simp only [hb, Bool.false_eq_true, if_false]
        by_cases hk : (e.1 == k') = true
        · have hk'' : k' ≠ k := fun h => he ((by simpa using hk : e.1 = k').trans h)
          simp [hk, hk'']
        · simp only [Bool.not_eq_true] at hk
          simp only [hk]
          exact this
  · rename_i h
    simp only [lookup, List.find?_append]
    by_cases hk : k' = k
    · subst hk
      have : d.find? (fun e => e.1 == k') = none := by
        rw [List.find?_eq_none]
        intro e he hh
        exact h (List.any_eq_true.2 ⟨e, he, hh⟩)
      simp [this]
    · have hne : (k == k') = false := by simpa using fun h => hk h.symm
      simp only [hk, if_false, List.find?_cons, hne, List.find?_nil, Option.or_none]

/-- What the loop writes when the terms follow a sequence: its values, up to the first that reaches the cut-off; nothing else is changed. -/
theorem extend_follows {f : Nat → Int} {o : Nat} {c : Fin o → ℚ} (hf : Follows f c) (gate : String) (mc : Nat) (cutoff : ℚ) (pre : List Int) :
    ∀ (n i m : Nat) (d : Data), o ≤ m → ∃ s' d', extend gate ⟨o, c⟩ mc cutoff n i (pre ++ terms f m) d = some (s', d') ∧
      (∀ j, j < n → (∀ j' ≤ j, (f (m + j') : ℚ) < cutoff) → lookup d' (gate, mc + i + j + 1) = some (f (m + j))) ∧
      (∀ k, (∀ j, j < n → (∀ j' ≤ j, (f (m + j') : ℚ) < cutoff) → k ≠ (gate, mc + i + j + 1)) → lookup d' k = lookup d k) := by
  intro n
  induction n with
  | zero =>
    intro i m d hm
    exact ⟨_, _, rfl, by simp, by simp⟩
  | succ n ih =>
    intro i m d hm
    simp only [extend, nextTerm_follows hf pre hm]
    by_cases hc : cutoff ≤ (f m : ℚ)
    · rw [if_pos hc]
      refine ⟨_, _, rfl, ?_, fun _ _ => rfl⟩
      intro j _ hj
      have := hj 0 (Nat.zero_le _)
      rw [Nat.add_zero] at this
      exact absurd this (not_lt.2 hc)
    · rw [if_neg hc, List.append_assoc, terms_succ]
      obtain ⟨s', d', h1, h2, h3⟩ := ih (i + 1) (m + 1) (assign d (gate, mc + i + 1) (f m)) (by omega)
      refine ⟨s', d', h1, ?_, ?_⟩
      · intro j hj hb
        cases j with
        | zero =>
          rw [h3 (gate, mc + i + 0 + 1), lookup_assign]
          · simp
          · intro j' _ _ he
            simp only [Prod.mk.injEq] at he
            omega
        | succ j =>
          have := h2 j (by omega) (fun j' hj' => by
            have := hb (j' + 1) (by omega)
            rwa [show m + (j' + 1) = m + 1 + j' by omega] at this)
          rw [show mc + i + (j + 1) + 1 = mc + (i + 1) + j + 1 by omega, this, show m + (j + 1) = m + 1 + j by omega]
      · intro k hk
        rw [h3 k, lookup_assign, if_neg]
        · have := hk 0 (by omega) (fun j' hj' => by
            rw [Nat.le_zero.1 hj', Nat.add_zero]
            exact not_le.1 hc)
          simpa using this
        · intro j hj hb
          have := hk (j + 1) (by omega) (fun j' hj' => by
            cases j' with
            | zero => exact not_le.1 hc
            | succ j' =>
              have := hb j' (by omega)
              rwa [show m + 1 + j' = m + (j' + 1) by omega] at this)
          rwa [show mc + i + (j + 1) + 1 = mc + (i + 1) + j + 1 by omega] at this

theorem firstFit_at {seq : List Int} {o : Nat} {c : Fin o → ℚ} (h : checkRecurrence seq o = some c) :
    ∀ (n s : Nat), s ≤ o → o < s + n → (∀ o', s ≤ o' → o' < o → checkRecurrence seq o' = none) → firstFit seq (List.range' s n) = some ⟨o, c⟩ := by
  intro n
  induction n with
  | zero => intro s h1 h2; omega
  | succ n ih =>
    intro s h1 h2 h3
    rw [List.range'_succ, firstFit]
    rcases Nat.eq_or_lt_of_le h1 with he | hl
    · subst he
      rw [h]
    · rw [h3 s (le_refl _) hl]
      exact ih (s + 1) (by omega) (by omega) (fun o' ho' => h3 o' (by omega))

/-- **C52.** If the sorted costs after the cut are the first terms of a sequence `f` that follows a recurrence of order `o` and determines it, and no smaller
order fits, then the costs written for more controls are the further terms of `f`, up to the first that reaches the cut-off, and nothing else
is changed. -/
theorem continuation_correct {d : Data} {gate : String} {cut maxOrder mc mq : Nat} {cutoff : ℚ} {f : Nat → Int} {o len : Nat} {c : Fin o → ℚ}
    (hs : costs d gate cut = terms f len) (hf : Follows f c) (ho : 1 ≤ o ∧ o ≤ maxOrder) (hlen : 2 * o < len)
    (hdet : (Matrix.of fun i j : Fin o => (f (i + j) : ℚ)).det ≠ 0) (hmin : ∀ o', 1 ≤ o' → o' < o → checkRecurrence (terms f len) o' = none) :
    ∃ d', findContinuation d gate cut maxOrder mc mq cutoff = some d' ∧
      (∀ j, j < mq - mc - 1 → (∀ j' ≤ j, (f (len + j') : ℚ) < cutoff) → lookup d' (gate, mc + j + 1) = some (f (len + j))) ∧
      (∀ k, (∀ j, j < mq - mc - 1 → (∀ j' ≤ j, (f (len + j') : ℚ) < cutoff) → k ≠ (gate, mc + j + 1)) → lookup d' k = lookup d k) := by
  have hc : coefficients (terms f len) maxOrder = ⟨o, c⟩ := by
    unfold coefficients
    rw [firstFit_at (recurrence_complete hf hlen hdet) maxOrder 1 ho.1 (by omega) hmin]
    rfl
  obtain ⟨s', d', h1, h2, h3⟩ := extend_follows hf gate mc cutoff [] (mq - mc - 1) 0 len d (by omega)
  refine ⟨d', ?_, ?_, ?_⟩
  · rw [List.nil_append] at h1
    simp only [findContinuation, hs, hc, h1, Option.map_some]
  · simpa using h2
  · simpa using h3

/-- **C52.** If no recurrence is found, the costs are continued by their last difference. -/
theorem continuation_linear {d : Data} {gate : String} {cut maxOrder mc mq : Nat} {cutoff : ℚ} {pre : List Int} {a b : Int}
    (hs : costs d gate cut = pre ++ [a, b]) (hnone : ∀ o, 1 ≤ o → o ≤ maxOrder → checkRecurrence (pre ++ [a, b]) o = none) :
    a ≤ b ∧ ∃ d', findContinuation d gate cut maxOrder mc mq cutoff = some d' ∧
      (∀ j, j < mq - mc - 1 → ((b + (j + 1) * (b - a) : Int) : ℚ) < cutoff → lookup d' (gate, mc + j + 1) = some (b + (j + 1) * (b - a))) ∧
      ∀ k, k.1 ≠ gate ∨ k.2 ≤ mc ∨ mq ≤ k.2 → lookup d' k = lookup d k := by
  have hab : a ≤ b := by
    have hp : (costs d gate cut).Pairwise (· ≤ ·) := by
      unfold costs
      apply List.Pairwise.drop
      have := List.pairwise_mergeSort (le := fun a b : Int => decide (a ≤ b)) (by intro a b c h1 h2; simp only [decide_eq_true_eq] at *; omega)
        (by intro a b; simp only [Bool.or_eq_true, decide_eq_true_eq]; omega) ((d.filter fun e => e.1.1 == gate).map (·.2))
      exact this.imp (by simp)
    rw [hs, List.pairwise_append] at hp
    have := hp.2.1
    simp only [List.pairwise_cons, List.mem_singleton, forall_eq] at this
    exact this.1
  refine ⟨hab, ?_⟩
  have hc : coefficients (pre ++ [a, b]) maxOrder = linear := by
    unfold coefficients
    have : ∀ (n s : Nat), 1 ≤ s → s + n ≤ maxOrder + 1 → firstFit (pre ++ [a, b]) (List.range' s n) = none := by
      intro n
      induction n with
      | zero => intro s _ _; rfl
      | succ n ih =>
        intro s h1 h2
        rw [List.range'_succ, firstFit, hnone s h1 (by omega)]
        exact ih (s + 1) (by omega) (by omega)
    rw [this maxOrder 1 (le_refl _) (by omega)]
    rfl
  have hf : Follows (fun i => a + i * (b - a)) (o := 2) ![-1, 2] := by
    intro n
    rw [Fin.sum_univ_two]
    simp
    ring
  have ht : pre ++ [a, b] = pre ++ terms (fun i => a + i * (b - a)) 2 := by
    simp [terms, List.range_succ]
  obtain ⟨s', d', h1, h2, h3⟩ := extend_follows hf gate mc cutoff pre (mq - mc - 1) 0 2 d (le_refl _)
  have e : ∀ j : Nat, a + ((2 + j : Nat) : Int) * (b - a) = b + (j + 1) * (b - a) := by intro j; push_cast; ring
  refine ⟨d', ?_, ?_, ?_⟩
  · rw [← ht] at h1
    simp only [findContinuation, hs, hc]
    rw [show linear = ⟨2, ![-1, 2]⟩ from rfl, h1]
    rfl
  · intro j hj hb
    have := h2 j hj (fun j' hj' => by
      refine lt_of_le_of_lt ?_ hb
      rw [e]
      have : (b + ((j' : Int) + 1) * (b - a)) ≤ b + (j + 1) * (b - a) := by
        have : ((j' : Int) + 1) * (b - a) ≤ ((j : Int) + 1) * (b - a) := Int.mul_le_mul_of_nonneg_right (by omega) (by omega)
        omega
      exact_mod_cast this)
    rw [e] at this
    simpa using this
  · intro k hk
    refine h3 k fun j hj _ he => ?_
    subst he
    simp only [ne_eq, not_true_eq_false, false_or] at hk
    omega

/-! ## Cases -/

/-- Costs `1, 2, 4, 8, …` are recognised by order 1 and doubled on. -/
example : ∃ d', findContinuation ((List.range 12).map fun i => (("p", i), (2 ^ i : Int))) "p" = some d' ∧
    lookup d' ("p", 12) = some 4096 ∧ lookup d' ("p", 19) = some 524288 ∧ lookup d' ("p", 20) = none ∧ lookup d' ("p", 3) = some 8 := by
  have hs : costs ((List.range 12).map fun i => (("p", i), (2 ^ i : Int))) "p" 5 = terms (fun i => 2 ^ (i + 5)) 7 := by
    have hm : (List.map (fun i : Nat => (2 ^ i : Int)) (List.range 12)).mergeSort (· ≤ ·) = List.map (fun i : Nat => (2 ^ i : Int)) (List.range 12) :=
      List.mergeSort_of_pairwise (by decide +kernel)
    have hm' : ((((List.range 12).map fun i => (("p", i), (2 ^ i : Int))).filter fun e => e.1.1 == "p").map (·.2))
        = List.map (fun i : Nat => (2 ^ i : Int)) (List.range 12) := by decide +kernel
    unfold costs
    rw [hm', hm]
    decide +kernel
  have hf : Follows (fun i => 2 ^ (i + 5)) (o := 1) ![2] := by
    intro n
    simp
    ring
  obtain ⟨d', h1, h2, h3⟩ := continuation_correct (mc := 11) (mq := 128) (cutoff := 1000000) hs hf (maxOrder := 3) ⟨le_refl _, by omega⟩ (by omega)
    (by simp) (by intro o' h1 h2; omega)
  refine ⟨d', h1, ?_, ?_, ?_, ?_⟩
  · rw [show (("p", 12) : String × Nat) = ("p", 11 + 0 + 1) from rfl, h2 0 (by omega)]
    · rfl
    · intro j hj; rw [Nat.le_zero.1 hj]; norm_num
  · rw [show (("p", 19) : String × Nat) = ("p", 11 + 7 + 1) from rfl, h2 7 (by omega)]
    · rfl
    · intro j hj
      have : j < 8 := by omega
      interval_cases j <;> norm_num
  · rw [h3]
    · decide +kernel
    · intro j hj hb he
      simp only [Prod.mk.injEq, true_and] at he
      have : j = 8 := by omega
      subst this
      have := hb 8 (le_refl _)
      norm_num at this
  · rw [h3]
    · decide +kernel
    · intro j hj hb he
      simp only [Prod.mk.injEq, true_and] at he
      omega

/-- A sequence with `f (n+2) = 3 f (n+1) - 3 f n`: 1, 3, 6, 9, 9, 0, -27, … -/
def sinking : Nat → Int
  | 0 => 1
  | 1 => 3
  | n + 2 => 3 * sinking (n + 1) - 3 * sinking n

/-- Costs whose sorted tail is 1, 3, 6, 9, 9. -/
def sinkingData : Data := [(("x", 0), 1), (("x", 1), 1), (("x", 2), 1), (("x", 3), 1), (("x", 4), 1), (("x", 5), 1), (("x", 6), 3), (("x", 7), 6), (("x", 8), 9), (("x", 9), 9)]

/-- **C52, limit.** The continuation of increasing costs may be negative: after 1, 3, 6, 9, 9 comes 0, then -27; and a negative number in a profile is read as
a number near 2^64. -/
theorem continuation_negative :
    (∃ d', findContinuation sinkingData "x" = some d' ∧ lookup d' ("x", 12) = some 0 ∧ lookup d' ("x", 13) = some (-27)) ∧
    ∀ op : QCEC.OpType, QCEC.parseProfileLine (fun _ => some op) "x 13 -27".toList = .entry (op, 13) (2 ^ 64 - 27) := by
  constructor
  · have hs : costs sinkingData "x" 5 = terms sinking 5 := by
      have hm : ((sinkingData.filter fun e => e.1.1 == "x").map (·.2)) = [1, 1, 1, 1, 1, 1, 3, 6, 9, 9] := by decide +kernel
      unfold costs
      rw [hm, List.mergeSort_of_pairwise (by decide +kernel)]
      decide +kernel
    have hf : Follows sinking (o := 2) ![-3, 3] := by
      intro n
      rw [Fin.sum_univ_two]
      simp [sinking]
      ring
    have h1 : checkRecurrence (terms sinking 5) 1 = none := by
      rcases h : checkRecurrence (terms sinking 5) 1 with _ | c
      · rfl
      · obtain ⟨-, a, b⟩ := recurrence_sound h
        have a0 := a 0 (by omega)
        have b1 := b 1 (by decide +kernel)
        rw [Fin.sum_univ_one] at a0 b1
        simp [terms, sinking, List.range_succ] at a0 b1
        rw [a0] at b1
        norm_num at b1
    obtain ⟨d', e1, e2, -⟩ := continuation_correct (mc := 11) (mq := 128) (cutoff := 1000000) hs hf (maxOrder := 3) ⟨by omega, by omega⟩ (by omega)
      (by rw [Matrix.det_fin_two]; simp [sinking]; norm_num) (by
        intro o' h2 h3
        have : o' = 1 := by omega
        subst this
        exact h1)
    refine ⟨d', e1, ?_, ?_⟩
    · rw [show (("x", 12) : String × Nat) = ("x", 11 + 0 + 1) from rfl, e2 0 (by omega)]
      · rfl
      · intro j hj; rw [Nat.le_zero.1 hj]; norm_num [sinking]
    · rw [show (("x", 13) : String × Nat) = ("x", 11 + 1 + 1) from rfl, e2 1 (by omega)]
      · rfl
      · intro j hj
        have : j < 2 := by omega
        interval_cases j <;> norm_num [sinking]
  · intro op
    cases op with
    | other n => rfl
    | _ => decide +kernel

end QCEC.Props
