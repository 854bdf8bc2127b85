import Verif.Lemmas.DDSem
/-!
# Sufficient conditions for `CancelSafe` and `SkipSafe`
-/
namespace QCEC.Spec
open QCEC QCEC.DD QCEC.Sem

variable {n : Nat}

/-- The operation touches physical qubit `p`. -/
def STouches (p : Fin n) : SOp n → Prop
  | .gate g => (∃ i, g.targets i = p) ∨ ∃ c ∈ g.controls, c.1 = p
  | .swap a b => a = p ∨ b = p
  | .barrier => False

/-- The operation touches physical qubit `p`. -/
def Touches (p : Fin n) : Op n → Prop
  | .simple s => STouches p s
  | .compound l => ∃ s ∈ l, STouches p s

theorem map_congr {g : Gate n} {σ τ : Equiv.Perm (Fin n)} (h : ∀ p, STouches p (.gate g) → σ p = τ p) : g.map σ = g.map τ := by
  have h1 : (fun i => σ (g.targets i)) = fun i => τ (g.targets i) := funext fun i => h _ (Or.inl ⟨i, rfl⟩)
  have h2 : (g.controls.map fun c => (σ c.1, c.2)) = g.controls.map fun c => (τ c.1, c.2) :=
    List.map_congr_left fun c hc => by rw [h _ (Or.inr ⟨c, hc, rfl⟩)]
  unfold Gate.map
  rw [h1, h2]

theorem sop_congr {s : SOp n} (hs : ∀ a b, s ≠ .swap a b) {σ τ : Equiv.Perm (Fin n)} (h : ∀ p, STouches p s → σ p = τ p) :
    (s.getDD σ).1 = (s.getDD τ).1 ∧ (s.getDD σ).2 = σ := by
  cases s with
  | gate g => exact ⟨by show (g.map σ).mat = (g.map τ).mat; rw [map_congr h], rfl⟩
  | swap a b => exact absurd rfl (hs a b)
  | barrier => exact ⟨rfl, rfl⟩

theorem noSwap_moved {o : Op n} (h : NoSwap o) (σ : Equiv.Perm (Fin n)) : Moved σ o = σ := by
  rw [← getDD_moved]; exact h.stable σ

theorem logicalOp_getDD {o : Op n} (h : NoSwap o) (σ : Equiv.Perm (Fin n)) : logicalOp σ o = (o.getDD σ).1 := by
  rw [o.getDD_view, h.stable σ]; rfl

/-- What an operation without SWAPs does to the logical qubits depends on the labels of the qubits it touches only. -/
theorem logicalOp_congr {o : Op n} (ho : NoSwap o) {σ τ : Equiv.Perm (Fin n)} (h : ∀ p, Touches p o → σ p = τ p) :
    logicalOp σ o = logicalOp τ o := by
  rw [logicalOp_getDD ho, logicalOp_getDD ho]
  cases o with
  | simple s => exact (sop_congr (by rintro a b rfl; exact ho) h).1
  | compound l =>
    have key : ∀ (l : List (SOp n)) (A : Mat n), (∀ s ∈ l, ∀ a b, s ≠ .swap a b) → (∀ p, (∃ s ∈ l, STouches p s) → σ p = τ p) →
        (getDDList l A σ).1 = (getDDList l A τ).1 := by
      intro l
      induction l with
      | nil => intro A _ _; rfl
      | cons s r ih =>
        intro A hn ht
        have e := sop_congr (hn s List.mem_cons_self) (σ := σ) (τ := τ) fun p hp => ht p ⟨s, List.mem_cons_self, hp⟩
        have e' := sop_congr (hn s List.mem_cons_self) (σ := τ) (τ := τ) fun p _ => rfl
        unfold getDDList
        rw [e.1, e.2, e'.2]
        exact ih _ (fun t ht' => hn t (List.mem_cons_of_mem _ ht'))
          fun p ⟨t, ht', hp⟩ => ht p ⟨t, List.mem_cons_of_mem _ ht', hp⟩
    exact key l 1 ho h

/-- No operation of one circuit also occurs in the other. -/
theorem CancelSafe.disjoint {opEq : Op n → Op n → Bool} {qc1 qc2 : QC n} (h : ∀ o ∈ qc1.ops, ∀ o' ∈ qc2.ops, opEq o o' = false) :
    CancelSafe opEq qc1 qc2 := by
  intro p1 a r1 p2 b r2 e1 e2 he
  rw [h a (by simp [e1]) b (by simp [e2])] at he
  cases he

/-- Wherever equal operations occur, the qubits they touch have the same labels, and the operations contain no SWAPs. -/
theorem CancelSafe.of_labels {opEq : Op n → Op n → Bool} {qc1 qc2 : QC n} (hop : ∀ a b, opEq a b = true → a = b)
    (h : ∀ p1 o r1 p2 r2, qc1.ops = p1 ++ o :: r1 → qc2.ops = p2 ++ o :: r2 → o.isSwap = false → NoSwap o ∧
      ∀ p, Touches p o → p1.foldl Moved qc1.initialLayout p = p2.foldl Moved qc2.initialLayout p) : CancelSafe opEq qc1 qc2 := by
  intro p1 a r1 p2 b r2 e1 e2 he sa _
  obtain rfl := hop _ _ he
  obtain ⟨h1, h2⟩ := h _ _ _ _ _ e1 e2 sa
  exact ⟨noSwap_moved h1 _, noSwap_moved h1 _, logicalOp_congr h1 h2⟩

theorem moved_noSwaps (l : List (Op n)) (h : ∀ o ∈ l, NoSwap o) (σ : Equiv.Perm (Fin n)) : l.foldl Moved σ = σ := by
  induction l with
  | nil => rfl
  | cons o r ih =>
    rw [List.foldl_cons, noSwap_moved (h o List.mem_cons_self)]
    exact ih fun o' ho' => h o' (List.mem_cons_of_mem _ ho')

/-- The circuits have the same initial layout and contain no SWAPs (as after the default `elide_permutations` pass). -/
theorem CancelSafe.static {opEq : Op n → Op n → Bool} {qc1 qc2 : QC n} (hop : ∀ a b, opEq a b = true → a = b)
    (hl : qc1.initialLayout = qc2.initialLayout) (h1 : ∀ o ∈ qc1.ops, NoSwap o) (h2 : ∀ o ∈ qc2.ops, NoSwap o) :
    CancelSafe opEq qc1 qc2 := by
  refine .of_labels hop fun p1 o r1 p2 r2 e1 e2 _ => ⟨h1 o (by simp [e1]), fun p _ => ?_⟩
  rw [moved_noSwaps p1 fun o' ho' => h1 o' (by simp [e1, ho']), moved_noSwaps p2 fun o' ho' => h2 o' (by simp [e2, ho']), hl]

theorem SkipSafe.disjoint {opEq : Op n → Op n → Bool} {qc1 qc2 : QC n} (h : ∀ o ∈ qc1.ops, ∀ o' ∈ qc2.ops, opEq o o' = false) :
    SkipSafe opEq qc1 qc2 := (CancelSafe.disjoint h).skipSafe

theorem SkipSafe.static {opEq : Op n → Op n → Bool} {qc1 qc2 : QC n} (hop : ∀ a b, opEq a b = true → a = b)
    (hl : qc1.initialLayout = qc2.initialLayout) (h1 : ∀ o ∈ qc1.ops, NoSwap o) (h2 : ∀ o ∈ qc2.ops, NoSwap o) :
    SkipSafe opEq qc1 qc2 := (CancelSafe.static hop hl h1 h2).skipSafe

end QCEC.Spec
