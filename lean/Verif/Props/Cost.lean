import Verif.Model.Cost
/-!
# C41: the default gate-cost function
-/
namespace QCEC.Props
open QCEC

/-! ## Specification: closed form of the default gate costs over the natural numbers -/

/-- Cost of an `nc`-controlled X: 1 for X and CNOT, `14·(nc-1)` from the Toffoli gate on. -/
def specCostX (nc : Nat) : Nat := if nc ≤ 1 then 1 else 14 * (nc - 1)

/-- Closed form of the default cost. -/
def specCost (g : OpType) (nc : Nat) : Nat :=
  match g with
  | .X => specCostX nc
  | .H | .U | .U2 | .V | .Vdg | .RX | .RY | .SX | .SXdg => if nc = 0 then 1 else 2 * specCostX nc + 4
  | .P | .S | .Sdg | .T | .Tdg | .RZ => if nc = 0 then 1 else 2 * specCostX nc + 3
  | .Y | .Z => if nc = 0 then 1 else specCostX nc + 2
  | .SWAP => specCostX nc + 2
  | .iSWAP => if nc = 0 then 6 else 2 * specCostX (nc + 1) + 2 * (2 * specCostX nc + 3) + 2 * (2 * specCostX nc + 4)
  | .Peres | .Peresdg => specCostX (nc + 1) + specCostX nc
  | _ => 1

/-! ## Lemmas -/

theorem body_base (f : CostKey → Nat) (g : OpType) (h : g.isBaseGate = true) : legacyCostBody f (g, 0) = 1 := by
  simp [legacyCostBody, h]

theorem body_cnot (f : CostKey → Nat) : legacyCostBody f (.X, 1) = 1 := by
  simp [legacyCostBody, OpType.isBaseGate]

/-- `legacyCostBody f` on X only needs `f` on the four constant keys. -/
theorem body_X_congr (f f' : CostKey → Nat) (nc : Nat) (hP : f (.P, 0) = f' (.P, 0)) (hU2 : f (.U2, 0) = f' (.U2, 0))
    (hX : f (.X, 1) = f' (.X, 1)) (hU : f (.U, 0) = f' (.U, 0)) :
    legacyCostBody f (.X, nc) = legacyCostBody f' (.X, nc) := by
  simp [legacyCostBody, hP, hU2, hX, hU]

theorem body_congr (f f' : CostKey → Nat) (g : OpType) (nc : Nat) (hP : f (.P, 0) = f' (.P, 0))
    (hU2 : f (.U2, 0) = f' (.U2, 0)) (hX : f (.X, 1) = f' (.X, 1)) (hU : f (.U, 0) = f' (.U, 0))
    (hXn : f (.X, nc) = f' (.X, nc)) (hXn1 : f (.X, szAdd nc 1) = f' (.X, szAdd nc 1))
    (hS : f (.S, nc) = f' (.S, nc)) (hH : f (.H, nc) = f' (.H, nc)) :
    legacyCostBody f (g, nc) = legacyCostBody f' (g, nc) := by
  simp only [legacyCostBody, hP, hU2, hX, hU, hXn, hXn1, hS, hH]

/-- The model function satisfies the recursive equation of the C++ function. -/
theorem legacyCost_eq (k : CostKey) : legacyCost k = legacyCostBody legacyCost k := by
  have hconst : ∀ f f' : CostKey → Nat,
      legacyCostBody f (.P, 0) = legacyCostBody f' (.P, 0) ∧ legacyCostBody f (.U2, 0) = legacyCostBody f' (.U2, 0) ∧
      legacyCostBody f (.X, 1) = legacyCostBody f' (.X, 1) ∧ legacyCostBody f (.U, 0) = legacyCostBody f' (.U, 0) := by
    intro f f'
    simp only [body_cnot, body_base _ .P rfl, body_base _ .U2 rfl, body_base _ .U rfl, and_self]
  have hX : ∀ (f f' : CostKey → Nat) nc,
      legacyCostBody (legacyCostBody f) (.X, nc) = legacyCostBody (legacyCostBody f') (.X, nc) := by
    intro f f' nc
    obtain ⟨h1, h2, h3, h4⟩ := hconst f f'
    exact body_X_congr _ _ nc h1 h2 h3 h4
  have hSH : ∀ (f f' : CostKey → Nat) nc,
      legacyCostBody (legacyCostBody (legacyCostBody f)) (.S, nc) = legacyCostBody (legacyCostBody (legacyCostBody f')) (.S, nc) ∧
      legacyCostBody (legacyCostBody (legacyCostBody f)) (.H, nc) = legacyCostBody (legacyCostBody (legacyCostBody f')) (.H, nc) := by
    intro f f' nc
    have hx := hX f f' nc
    obtain ⟨h1, _, _, h4⟩ := hconst (legacyCostBody f) (legacyCostBody f')
    constructor
    · rw [legacyCostBody, hx, h1]; simp [legacyCostBody]
    · rw [legacyCostBody, hx, h4]; simp [legacyCostBody]
  obtain ⟨g, nc⟩ := k
  unfold legacyCost
  generalize (fun _ : CostKey => 0) = f
  have e1 := hconst (legacyCostBody (legacyCostBody f)) (legacyCostBody (legacyCostBody (legacyCostBody f)))
  have e2 := hX (legacyCostBody f) (legacyCostBody (legacyCostBody f)) nc
  have e3 := hX (legacyCostBody f) (legacyCostBody (legacyCostBody f)) (szAdd nc 1)
  have e4 := hSH f (legacyCostBody f) nc
  exact body_congr _ _ g nc e1.1 e1.2.1 e1.2.2.1 e1.2.2.2 e2 e3 e4.1 e4.2

theorem legacyCost_X (nc : Nat) (h : nc < 2 ^ 32 + 2) : legacyCost (.X, nc) = specCostX nc := by
  rw [legacyCost_eq]
  have h1 : legacyCost (.P, 0) = 1 := by rw [legacyCost_eq]; exact body_base _ _ rfl
  have h2 : legacyCost (.U2, 0) = 1 := by rw [legacyCost_eq]; exact body_base _ _ rfl
  have h3 : legacyCost (.X, 1) = 1 := by rw [legacyCost_eq]; exact body_cnot _
  have h4 : legacyCost (.U, 0) = 1 := by rw [legacyCost_eq]; exact body_base _ _ rfl
  simp only [legacyCostBody, h1, h2, h3, h4, specCostX, OpType.isBaseGate, szAdd, szMul, szSub, szMod]
  split
  · simp_all
  · split
    · simp_all
    · have : 2 ≤ nc := by grind
      rw [if_neg (by omega)]
      have e : (nc + 2 ^ 64 - 2 % 2 ^ 64) % 2 ^ 64 = nc - 2 := by omega
      rw [e]
      have e2 : ((2 * 1 % 2 ^ 64 + 2 * 1 % 2 ^ 64) % 2 ^ 64 + 3 * 1 % 2 ^ 64) % 2 ^ 64 = 7 := by decide
      rw [e2]
      omega

/-! ## C41 -/

/-- C41 (closed form, no wrap-around): for every gate type and every number of controls that fits mqt-core's 32-bit
qubit index, the 64-bit result is the closed form over the naturals. -/
theorem legacyCost_closed_form (g : OpType) (nc : Nat) (h : nc ≤ 2 ^ 32) : legacyCost (g, nc) = specCost g nc := by
  have hX := legacyCost_X nc (by omega)
  have hX1 := legacyCost_X (nc + 1) (by omega)
  have h1 : legacyCost (.P, 0) = 1 := by rw [legacyCost_eq]; exact body_base _ _ rfl
  have h3 : legacyCost (.X, 1) = 1 := by rw [legacyCost_eq]; exact body_cnot _
  have h4 : legacyCost (.U, 0) = 1 := by rw [legacyCost_eq]; exact body_base _ _ rfl
  have hs : szAdd nc 1 = nc + 1 := by unfold szAdd szMod; omega
  have bX : specCostX nc ≤ 14 * 2 ^ 32 := by unfold specCostX; split <;> omega
  have bX1 : specCostX (nc + 1) ≤ 14 * 2 ^ 32 := by unfold specCostX; split <;> omega
  have b0 : specCostX 0 = 1 := rfl
  have b1 : specCostX 1 = 1 := rfl
  have hS : legacyCost (.S, nc) = specCost .S nc := by
    rw [legacyCost_eq]; simp only [legacyCostBody, hX, h1, OpType.isBaseGate, specCost, szAdd, szMul, szMod]
    by_cases h0 : nc = 0 <;> simp [h0] <;> omega
  have hH : legacyCost (.H, nc) = specCost .H nc := by
    rw [legacyCost_eq]; simp only [legacyCostBody, hX, h4, OpType.isBaseGate, specCost, szAdd, szMul, szMod]
    by_cases h0 : nc = 0 <;> simp [h0] <;> omega
  cases g
  case X => exact hX
  all_goals
    rw [legacyCost_eq]
    simp only [legacyCostBody, hs, hX, hX1, hS, hH, h1, h3, h4, OpType.isBaseGate, specCost]
    try simp only [szAdd, szMul, szMod]
    by_cases h0 : nc = 0 <;> simp [h0, b0, b1] <;> omega

/-- C41 (progress): no gate is free – the cost is at least one for every gate type and admissible control count. -/
theorem legacyCost_pos (g : OpType) (nc : Nat) (h : nc ≤ 2 ^ 32) : 1 ≤ legacyCost (g, nc) := by
  rw [legacyCost_closed_form g nc h]
  have : ∀ n, 1 ≤ specCostX n := by intro n; unfold specCostX; split <;> omega
  have := this nc
  cases g <;> simp only [specCost] <;> (try split) <;> omega

/-- C41 (monotone): adding controls never makes a gate cheaper. -/
theorem legacyCost_mono (g : OpType) (a b : Nat) (hab : a ≤ b) (h : b ≤ 2 ^ 32) :
    legacyCost (g, a) ≤ legacyCost (g, b) := by
  rw [legacyCost_closed_form g a (by omega), legacyCost_closed_form g b h]
  have m : ∀ x y, x ≤ y → specCostX x ≤ specCostX y := by
    intro x y hxy; unfold specCostX; repeat' split
    all_goals omega
  have := m a b hab
  have := m (a + 1) (b + 1) (by omega)
  have p : ∀ n, 1 ≤ specCostX n := by intro n; unfold specCostX; split <;> omega
  have := p b
  have := p (b + 1)
  cases g <;> simp only [specCost] <;> repeat' split
  all_goals omega

-- non-vacuity / sanity: Toffoli 14, controlled H 6, iSWAP 6, doubly controlled Z 16
example : legacyCost (.X, 2) = 14 ∧ legacyCost (.H, 1) = 6 ∧ legacyCost (.iSWAP, 0) = 6 ∧ legacyCost (.Z, 2) = 16 := by
  decide

/-- C41: the guard on the number of controls is needed – with a control count of about `2^64/28` (far beyond any
representable circuit) the 64-bit computation wraps around to zero-ish values below the closed form. -/
theorem legacyCost_wraps : ∃ nc, nc < 2 ^ 64 ∧ legacyCost (.X, nc) < specCost .X nc := by
  refine ⟨2 ^ 63, by decide, ?_⟩
  decide +kernel

end QCEC.Props
