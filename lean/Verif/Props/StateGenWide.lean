import Verif.Props.StateGen
/-!
# Random stimuli on more than 63 qubits (C25, C27): where every bit comes from
-/
namespace QCEC.Props
open QCEC.Gen
variable {R : Rng}

/-- The engine after `k` words. -/
def wordsAfter (R : Rng) : Nat → R.σ → R.σ
  | 0, s => s
  | k + 1, s => (R.next (wordsAfter R k s)).2

theorem wordsAfter_next (k : Nat) (s : R.σ) : wordsAfter R k (R.next s).2 = wordsAfter R (k + 1) s := by
  induction k with
  | zero => rfl
  | succ k ih => show (R.next (wordsAfter R k (R.next s).2)).2 = _; rw [ih]; rfl

theorem drawWords_spec (n : Nat) (s : R.σ) :
    (drawWords R n s).2 = wordsAfter R n s ∧ ∀ i, i < n → (drawWords R n s).1[i]? = some (R.next (wordsAfter R i s)).1 := by
  induction n generalizing s with
  | zero => exact ⟨rfl, fun i hi => absurd hi (by omega)⟩
  | succ n ih =>
    obtain ⟨h1, h2⟩ := ih (R.next s).2
    refine ⟨by rw [← wordsAfter_next]; exact h1, fun i hi => ?_⟩
    cases i with
    | zero => rfl
    | succ i =>
      rw [← wordsAfter_next]
      exact h2 i (by omega)

/-- **C25, C27**: a classical stimulus on more than 63 random qubits takes bit `i` from bit `i % 64` of the `(i / 64)`-th word the engine returns – no
two qubits share a random bit –, and the engine has then delivered exactly these words. -/
theorem wide_bits {g g' : Generator R} {r : Req} {st : Stim} (h : Generate g r st g') (ht : r.type = .computationalBasis) (hn : 63 < r.random)
    (hle : r.ancillary ≤ r.total) :
    ∃ bits, st = .basis bits ∧ bits.length = r.total ∧
      (∀ i, i < r.random → bits[i]? = some ((R.next (wordsAfter R (i / 64) g.mt)).1.testBit (i % 64))) ∧
      g'.mt = wordsAfter R ((r.random + 63) / 64) g.mt ∧ g'.generated = g.generated := by
  cases h with
  | narrow v mt bits ht' hn' => omega
  | product ht' => rw [ht] at ht'; cases ht'
  | stabilizer ht' => rw [ht] at ht'; cases ht'
  | wide bits ht' hn' hb =>
    rw [fill_eq _ _ (fun i hi => wordBit_eq (drawWords_length _ _) hi) (by rw [Req.random]; omega)] at hb
    cases hb
    obtain ⟨h1, h2⟩ := drawWords_spec (R := R) (wordCount r.random) g.mt
    refine ⟨_, rfl, by simp, ?_, h1, rfl⟩
    intro i hi
    have hit : i < r.total := by have : r.random = r.total - r.ancillary := rfl; omega
    have := h2 (i / 64) (by rw [wordCount]; omega)
    simp [hit, hi, bitOf, List.getD_eq_getElem?_getD, this]

theorem tape_after (k : Nat) (e : List Nat) : wordsAfter tape k e = e.drop k := by
  induction k with
  | zero => rfl
  | succ k ih =>
    show (wordsAfter tape k e).tail = _
    rw [ih, List.tail_drop]

/-- **C25**: every classical input of the data qubits can be generated, also for more than 63 of them. -/
theorem wide_all_inputs (l : List Bool) (n : Nat) (hl : 63 < l.length) (hn : l.length ≤ n) :
    ∃ e g', Generate (Generator.new tape 0 e) (checkerReq n l.length .computationalBasis) (.basis (l ++ List.replicate (n - l.length) false)) g' := by
  let word (j : Nat) : Nat := Nat.ofBits (n := 64) fun i => l.getD (64 * j + i.val) false
  let e : List Nat := (List.range (l.length + 1)).map word
  have hr : (checkerReq n l.length .computationalBasis).random = l.length := by
    show n - (n - l.length) = _
    omega
  have hle : (checkerReq n l.length .computationalBasis).ancillary ≤ (checkerReq n l.length .computationalBasis).total := by
    show n - l.length ≤ n
    omega
  obtain ⟨_, _, g', hg⟩ := wide_stimulus (Generator.new tape 0 e) (checkerReq n l.length .computationalBasis) rfl (by rw [hr]; exact hl) hle
  obtain ⟨bits, hb, hlen, hbits, _⟩ := wide_bits hg rfl (by rw [hr]; exact hl) hle
  have hshape := stimulus_shape hg hle
  refine ⟨e, g', ?_⟩
  rw [hb] at hg hshape
  have : bits = l ++ List.replicate (n - l.length) false := by
    apply List.ext_getElem?
    intro i
    by_cases hi : i < l.length
    · rw [hbits i (by rw [hr]; exact hi), List.getElem?_append_left hi, List.getElem?_eq_getElem hi]
      have hm : (Generator.new tape 0 e).mt = e := rfl
      rw [hm, tape_after]
      have hd : (e.drop (i / 64)).headD 0 = word (i / 64) := by
        rw [List.headD_eq_head?_getD, List.head?_drop]
        have : i / 64 < l.length + 1 := by omega
        simp [e, this]
      show some (((e.drop (i / 64)).headD 0 % 2 ^ 64).testBit (i % 64)) = _
      rw [hd, Nat.testBit_mod_two_pow]
      have h64 : i % 64 < 64 := Nat.mod_lt _ (by decide)
      simp only [h64, decide_true, Bool.true_and, word]
      rw [Nat.testBit_ofBits_lt _ _ h64]
      have : 64 * (i / 64) + i % 64 = i := by omega
      simp [this, hi]
    · by_cases hi2 : i < n
      · have hz := hshape.2 i (by show n - (n - l.length) ≤ i; omega) hi2
        have hz' : bits[i]? = some false := hz
        rw [hz', List.getElem?_append_right (by omega), List.getElem?_replicate]
        rw [if_pos (by omega)]
      · rw [List.getElem?_eq_none (by rw [hlen]; show n ≤ i; omega), List.getElem?_eq_none]
        simp
        omega
  rw [← this]
  exact hg

end QCEC.Props
