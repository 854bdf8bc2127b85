import Verif.Props.ZXPerm

/-!
# C56, exact: which outputs the ZX checker fixes

`ancillae_fixed_partial` (Props.ZXPerm) needs the ancillary qubits to end on wires in the order in which they start.  Here: that condition is
not only sufficient but necessary, and the constructor treats both circuits that way.
-/
namespace QCEC.Props
open QCEC QCEC.Prep QCEC.ZX

/-- In an increasing list of naturals the element at position `i` is at least `i`. -/
theorem le_getElem_of_increasing {L : List Nat} (h : L.Pairwise (· < ·)) : ∀ i (hi : i < L.length), i ≤ L[i] := by
  intro i
  induction i with
  | zero => intro _; exact Nat.zero_le _
  | succ i ih =>
    intro hi
    have h1 := ih (by omega)
    have h2 := List.pairwise_iff_getElem.1 h i (i + 1) (by omega) hi (by omega)
    omega

/-- … and it is `i` only if the list starts with `0, …, i`. -/
theorem prefix_of_getElem {L : List Nat} (h : L.Pairwise (· < ·)) : ∀ i (hi : i < L.length), L[i] = i → ∀ j (hj : j ≤ i), L[j]'(by omega) = j := by
  intro i
  induction i with
  | zero => intro _ e j hj; obtain rfl : j = 0 := by omega
            exact e
  | succ i ih =>
    intro hi e j hj
    by_cases hj' : j = i + 1
    · subst hj'; exact e
    · refine ih (by omega) ?_ j (by omega)
      have h1 := le_getElem_of_increasing h i (by omega)
      have h2 := List.pairwise_iff_getElem.1 h i (i + 1) (by omega) hi (by omega)
      omega

theorem sum_eraseIdx_nat (L : List Nat) : ∀ i (hi : i < L.length), L.sum = L[i] + (L.eraseIdx i).sum := by
  induction L with
  | nil => intro i hi; simp at hi
  | cons x L ih =>
    intro i hi
    cases i with
    | zero => simp
    | succ i =>
      have := ih i (by simpa using hi)
      simp only [List.sum_cons, List.eraseIdx_cons_succ, List.getElem_cons_succ]
      omega

/-- One step from the top. -/
theorem fix_step (p : Layout) {n k : Nat} (hk : k < n) :
    (List.range' (n - (k + 1)) (k + 1)).reverse.foldlM (fixAncilla p) (Ports.new n) =
      ((List.range' (n - k) k).reverse.foldlM (fixAncilla p) (Ports.new n)).bind fun d => fixAncilla p d (n - (k + 1)) := by
  have e1 : List.range' (n - (k + 1)) (k + 1) = (n - (k + 1)) :: List.range' (n - k) k := by
    rw [List.range'_succ]
    congr 2
    omega
  rw [e1, List.reverse_cons, List.foldlM_append]
  cases (List.range' (n - k) k).reverse.foldlM (fixAncilla p) (Ports.new n) <;> simp

theorem sum_filter_ne (L : List Nat) (hL : L.Nodup) (o : Nat) (ho : o ∈ L) : L.sum = o + (L.filter (fun i => decide (i ≠ o))).sum := by
  induction L with
  | nil => cases ho
  | cons x L ih =>
    rw [List.nodup_cons] at hL
    by_cases e : x = o
    · subst e
      rw [List.filter_cons_of_neg (by simp), List.filter_eq_self.2]
      · simp
      · intro i hi; simp only [ne_eq, decide_eq_true_eq]; rintro rfl; exact hL.1 hi
    · have := ih hL.2 (by rcases List.mem_cons.1 ho with h | h; exact absurd h.symm e; exact h)
      rw [List.filter_cons_of_pos (by simpa using e)]
      simp only [List.sum_cons]
      omega

/-- The sum of the outputs that are not the end of an ancillary. -/
theorem sum_free {n : Nat} (w : Nat → Nat) : ∀ k, k ≤ n → (∀ a, n - k ≤ a → a < n → w a < n) →
    (∀ a b, n - k ≤ a → a < b → b < n → w a ≠ w b) →
    (List.range n).sum = ((List.range n).filter fun o => decide (∀ a, a < n → n - k ≤ a → w a ≠ o)).sum + ((List.range' (n - k) k).map w).sum := by
  intro k
  induction k with
  | zero =>
    intro _ _ _
    have : (List.range n).filter (fun o => decide (∀ a, a < n → n - 0 ≤ a → w a ≠ o)) = List.range n := by
      rw [List.filter_eq_self]
      intro o _
      simp only [decide_eq_true_eq]
      intro a h1 h2
      omega
    rw [this]; simp
  | succ k ih =>
    intro hk hw hinj
    have e1 : List.range' (n - (k + 1)) (k + 1) = (n - (k + 1)) :: List.range' (n - k) k := by
      rw [List.range'_succ]
      congr 2
      omega
    have ih' := ih (by omega) (fun a h => hw a (by omega)) (fun a b h => hinj a b (by omega))
    have hnd : ((List.range n).filter fun o => decide (∀ a, a < n → n - k ≤ a → w a ≠ o)).Nodup := List.nodup_range.filter _
    have hs := sum_filter_ne _ hnd (w (n - (k + 1))) (by
      simp only [List.mem_filter, List.mem_range, decide_eq_true_eq]
      exact ⟨hw _ (by omega) (by omega), fun a h1 h2 e => hinj (n - (k + 1)) a (by omega) (by omega) h1 e.symm⟩)
    rw [List.filter_filter] at hs
    have hc : (List.range n).filter (fun o => decide (∀ a, a < n → n - (k + 1) ≤ a → w a ≠ o)) =
        (List.range n).filter (fun a => decide (a ≠ w (n - (k + 1))) && decide (∀ b, b < n → n - k ≤ b → w b ≠ a)) := by
      refine List.filter_congr ?_
      intro o _
      rw [Bool.eq_iff_iff]
      simp only [ne_eq, Bool.and_eq_true, decide_eq_true_eq]
      constructor
      · intro h
        exact ⟨fun e => h (n - (k + 1)) (by omega) (by omega) e.symm, fun a h1 h2 => h a h1 (by omega)⟩
      · rintro ⟨h2, h1⟩ a h3 h4
        by_cases e : a = n - (k + 1)
        · subst e; exact fun h => h2 h.symm
        · exact h1 a h3 (by omega)
    rw [hc, e1, List.map_cons, List.sum_cons]
    omega

/-- **C56, exact.** The constructor fixes exactly the ancillary inputs and exactly the outputs on which the ancillary qubits end if and only if
the ancillary qubits end on wires in the same order as they start. -/
theorem ancillae_fixed_iff {p : Layout} {data n : Nat} (hd : data ≤ n) (w : Nat → Nat)
    (hp : ∀ a, data ≤ a → a < n → p.get a = some (w a)) (hw : ∀ a, data ≤ a → a < n → w a < n)
    (hinj : ∀ a b, data ≤ a → a < b → b < n → w a ≠ w b) :
    fixAncillae p data n = some ⟨List.range data, (List.range n).filter fun o => decide (∀ a, a < n → data ≤ a → w a ≠ o)⟩ ↔
      ∀ a b, data ≤ a → a < b → b < n → w a < w b := by
  refine ⟨?_, ancillae_fixed_partial hd w hp hw⟩
  have key : ∀ k, k ≤ n - data → ∀ d, (List.range' (n - k) k).reverse.foldlM (fixAncilla p) (Ports.new n) = some d →
      d.outputs.Pairwise (· < ·) ∧ d.outputs.sum + ((List.range' (n - k) k).map w).sum ≤ (List.range n).sum ∧
      (d.outputs.sum + ((List.range' (n - k) k).map w).sum = (List.range n).sum → ∀ a b, n - k ≤ a → a < b → b < n → w a < w b) := by
    intro k
    induction k with
    | zero =>
      intro _ d h
      simp only [Nat.sub_zero, List.range'_zero, List.reverse_nil, List.foldlM_nil, Option.pure_def, Option.some.injEq] at h
      subst h
      refine ⟨List.pairwise_lt_range, by simp [Ports.new], ?_⟩
      intro _ a b; omega
    | succ k ih =>
      intro hk d h
      rw [fix_step p (by omega)] at h
      obtain ⟨d0, h0, h1⟩ := Option.bind_eq_some_iff.1 h
      obtain ⟨i1, i2, i3⟩ := ih (by omega) d0 h0
      unfold fixAncilla Ports.makeAncilla at h1
      rw [hp _ (by omega) (by omega)] at h1
      simp only at h1
      split at h1
      · rename_i hr
        simp only [Option.some.injEq] at h1
        subst h1
        have e1 : List.range' (n - (k + 1)) (k + 1) = (n - (k + 1)) :: List.range' (n - k) k := by
          rw [List.range'_succ]
          congr 2
          omega
        have hge := le_getElem_of_increasing i1 _ hr.2
        have hsum := sum_eraseIdx_nat d0.outputs _ hr.2
        refine ⟨i1.sublist (List.eraseIdx_sublist ..), ?_, ?_⟩
        · rw [e1, List.map_cons, List.sum_cons]
          dsimp only
          omega
        · rw [e1, List.map_cons, List.sum_cons]
          dsimp only
          intro he
          have hinc := i3 (by omega)
          have heq : d0.outputs[w (n - (k + 1))]'hr.2 = w (n - (k + 1)) := by omega
          have hout := ancillae_fixed_partial (p := p) (data := n - k) (n := n) (by omega) w (fun a h => hp a (by omega)) (fun a h => hw a (by omega)) hinc
          unfold fixAncillae at hout
          rw [show n - (n - k) = k by omega, h0] at hout
          simp only [Option.some.injEq] at hout
          intro a b ha hab hb
          by_cases e : a = n - (k + 1)
          · subst e
            have hne := hinj (n - (k + 1)) b (by omega) hab hb
            by_contra hlt
            have hpre := prefix_of_getElem i1 _ hr.2 heq (w b) (by omega)
            have hmem : w b ∈ d0.outputs := by
              rw [← hpre]
              exact List.getElem_mem _
            rw [hout] at hmem
            simp only [List.mem_filter, decide_eq_true_eq] at hmem
            exact hmem.2 b hb (by omega) rfl
          · exact hinc a b (by omega) hab hb
      · cases h1
  intro h
  unfold fixAncillae at h
  have := key (n - data) (Nat.le_refl _)
  rw [show n - (n - data) = data by omega] at this
  obtain ⟨_, _, h3⟩ := this _ h
  refine h3 ?_
  have := sum_free (n := n) w (n - data) (by omega) (by rw [show n - (n - data) = data by omega]; exact hw) (by rw [show n - (n - data) = data by omega]; exact hinj)
  rw [show n - (n - data) = data by omega] at this
  exact this.symm

/-- **C56, exact, both circuits.** `w1 a` and `w2 a` are the wires on which qubit `a` of the first and of the second circuit ends.  The
constructor fixes, in each diagram, exactly the ancillary inputs and exactly the wires on which the ancillary qubits of *that* circuit end,
if and only if in both circuits the ancillary qubits end in the order in which they start. -/
theorem construct_fixed_iff {α : Type} {c1 c2 : Circ α} {p1 p2 : Layout} (hp1 : invertPermutations c1 = some p1)
    (hp2 : invertPermutations c2 = some p2) (w1 w2 : Nat → Nat)
    (hw1 : ∀ a, c1.ndata ≤ a → a < c1.nqubits → p1.get a = some (w1 a) ∧ w1 a < c1.nqubits)
    (hw2 : ∀ a, c1.ndata ≤ a → a < c1.nqubits → p2.get a = some (w2 a) ∧ w2 a < c1.nqubits)
    (hi1 : ∀ a b, c1.ndata ≤ a → a < b → b < c1.nqubits → w1 a ≠ w1 b)
    (hi2 : ∀ a b, c1.ndata ≤ a → a < b → b < c1.nqubits → w2 a ≠ w2 b) :
    construct c1 c2 = some
      (⟨List.range c1.ndata, (List.range c1.nqubits).filter fun o => decide (∀ a, a < c1.nqubits → c1.ndata ≤ a → w1 a ≠ o)⟩,
       ⟨List.range c1.ndata, (List.range c1.nqubits).filter fun o => decide (∀ a, a < c1.nqubits → c1.ndata ≤ a → w2 a ≠ o)⟩) ↔
      (∀ a b, c1.ndata ≤ a → a < b → b < c1.nqubits → w1 a < w1 b) ∧ (∀ a b, c1.ndata ≤ a → a < b → b < c1.nqubits → w2 a < w2 b) := by
  have hd : c1.ndata ≤ c1.nqubits := Nat.le_add_right _ _
  have e1 := ancillae_fixed_iff hd w1 (fun a h1 h2 => (hw1 a h1 h2).1) (fun a h1 h2 => (hw1 a h1 h2).2) hi1
  have e2 := ancillae_fixed_iff hd w2 (fun a h1 h2 => (hw2 a h1 h2).1) (fun a h1 h2 => (hw2 a h1 h2).2) hi2
  rw [← e1, ← e2]
  unfold ZX.construct
  rw [hp1, hp2]
  dsimp only
  generalize fixAncillae p1 c1.ndata c1.nqubits = a
  generalize fixAncillae p2 c1.ndata c1.nqubits = b
  cases a <;> cases b <;> simp

/-- Two circuits with one data and two ancillary qubits. -/
def ordered3 (out : Layout) : Circ (List Nat) where
  ndata := 1
  nancillae := 2
  initialLayout := [(0, 0), (1, 1), (2, 2)]
  outputPermutation := out
  ancillary := [false, true, true]
  garbage := [false, false, false]
  ops := []

/-- A case that meets the hypotheses and the condition: the data qubit of the second circuit ends on wire 2, the ancillary qubits on wires 0
and 1; different outputs are fixed in the two diagrams. -/
example : invertPermutations (ordered3 [(0, 0), (1, 1), (2, 2)]) = some [(0, 0), (1, 1), (2, 2)] ∧
    invertPermutations (ordered3 [(0, 1), (1, 2), (2, 0)]) = some [(0, 2), (1, 0), (2, 1)] ∧
    construct (ordered3 [(0, 0), (1, 1), (2, 2)]) (ordered3 [(0, 1), (1, 2), (2, 0)]) = some (⟨[0], [0]⟩, ⟨[0], [2]⟩) := by decide

/-- … and one that meets the hypotheses but not the condition: the ancillary qubits 1, 2 end on the wires 1, 0; wire 2 gets fixed instead
of wire 1. -/
example : invertPermutations (ordered3 [(0, 2), (1, 1), (2, 0)]) = some [(0, 2), (1, 1), (2, 0)] ∧
    construct (ordered3 [(0, 0), (1, 1), (2, 2)]) (ordered3 [(0, 2), (1, 1), (2, 0)]) = some (⟨[0], [0]⟩, ⟨[0], [1]⟩) := by decide

end QCEC.Props
