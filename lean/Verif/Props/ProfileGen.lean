import Verif.Lemmas.ProfileGen
import Mathlib.Tactic.ByContra
/-!
# C76: generated profiles
-/
namespace QCEC.Props
open QCEC.ProfileGen QCEC.Recurrence QCEC.Py QCEC.Spec.ProfileGen
open QCEC.Lemmas.ProfileGen hiding keys


/-- The twelve measured costs of the phase gate or the X gate, by number of controls. -/
def measuredCosts (cost : GateCall → Nat) (mode : AncillaMode) (g : String) : List Int := (List.range 12).map fun c => (cost (measured mode g c) : Int)

/-- The terms the continuation starts from: the seven largest measured costs, in order. -/
def largest (cost : GateCall → Nat) (mode : AncillaMode) (g : String) : List Int := ((measuredCosts cost mode g).mergeSort (· ≤ ·)).drop 5

/-- `vs` continues the measured costs: each term is the next term of the recurrence found in the largest costs and stays below a million, and there are
116 of them unless the next one would reach a million. -/
def Continues (cost : GateCall → Nat) (mode : AncillaMode) (g : String) (vs : List Int) : Prop :=
  vs.length ≤ 116 ∧
  (∀ j, j < vs.length → ∃ t : Int, vs[j]? = some t ∧ nextTerm (coefficients (largest cost mode g) 3) (largest cost mode g ++ vs.take j) = some t ∧ t < 1000000) ∧
  (vs.length < 116 → ∃ t : Int, nextTerm (coefficients (largest cost mode g) 3) (largest cost mode g ++ vs) = some t ∧ 1000000 ≤ t)

theorem flat_general : flat .general generalGates = small ++ [(("x", 2), onAll 3 "ccx" 0)] := by decide +kernel

theorem flat_phase : flat .multiControlled multiControlledGates = (List.range' 2 10).map fun c => (("p", c), mcp c) := by decide +kernel

theorem flat_x (mode : AncillaMode) : flat .multiControlled (gateCollectionForMode mode) = (List.range' 2 10).map fun c => (("x", c), mcx mode c) := by
  cases mode <;> decide +kernel

theorem nodup_general : ((flat .general generalGates).map (·.1)).Nodup := by decide +kernel
theorem nodup_phase : ((flat .multiControlled multiControlledGates).map (·.1)).Nodup := by decide +kernel
theorem nodup_x (mode : AncillaMode) : ((flat .multiControlled (gateCollectionForMode mode)).map (·.1)).Nodup := by
  cases mode <;> decide +kernel

/-- The dictionary after the steps of the generation, given the continuations. -/
def stages (cost : GateCall → Nat) (mode : AncillaMode) (vp vx : List Int) : Data :=
  update (update (update (update (valued cost (flat .general generalGates)) (valued cost (flat .multiControlled multiControlledGates)))
    (numbered "p" 12 vp)) (valued cost (flat .multiControlled (gateCollectionForMode mode)))) (numbered "x" 12 vx)

theorem lookup_phase (cost : GateCall → Nat) (k : String × Nat) :
    lookup (valued cost (flat .multiControlled multiControlledGates)) k = if k.1 = "p" ∧ 2 ≤ k.2 ∧ k.2 ≤ 11 then some (cost (mcp k.2) : Int) else none := by
  obtain ⟨g, c⟩ := k
  rw [lookup_valued, flat_phase]
  split
  · rename_i h
    obtain ⟨rfl, h1, h2⟩ := h
    dsimp only at h1 h2 ⊢
    interval_cases c <;> rfl
  · rename_i h
    rw [Option.map_eq_none_iff, List.find?_eq_none]
    intro e he hh
    obtain ⟨c', hc', rfl⟩ := List.mem_map.1 he
    rw [List.mem_range'_1] at hc'
    simp only [beq_iff_eq, Prod.mk.injEq] at hh
    exact h ⟨hh.1.symm, by dsimp only; omega, by dsimp only; omega⟩

theorem lookup_x (cost : GateCall → Nat) (mode : AncillaMode) (k : String × Nat) :
    lookup (valued cost (flat .multiControlled (gateCollectionForMode mode))) k = if k.1 = "x" ∧ 2 ≤ k.2 ∧ k.2 ≤ 11 then some (cost (mcx mode k.2) : Int) else none := by
  obtain ⟨g, c⟩ := k
  rw [lookup_valued, flat_x]
  split
  · rename_i h
    obtain ⟨rfl, h1, h2⟩ := h
    dsimp only at h1 h2 ⊢
    interval_cases c <;> rfl
  · rename_i h
    rw [Option.map_eq_none_iff, List.find?_eq_none]
    intro e he hh
    obtain ⟨c', hc', rfl⟩ := List.mem_map.1 he
    rw [List.mem_range'_1] at hc'
    simp only [beq_iff_eq, Prod.mk.injEq] at hh
    exact h ⟨hh.1.symm, by dsimp only; omega, by dsimp only; omega⟩

/-- The general gates: those written out, and the X gate with two controls (which is replaced later). -/
theorem lookup_general (cost : GateCall → Nat) (k : String × Nat) :
    (∀ call, (k, call) ∈ small → lookup (valued cost (flat .general generalGates)) k = some (cost call : Int)) ∧
    ((∀ call, (k, call) ∉ small) → k ≠ ("x", 2) → lookup (valued cost (flat .general generalGates)) k = none) := by
  rw [lookup_valued, flat_general]
  constructor
  · intro call h
    have hall : ∀ e ∈ small, (small ++ [(("x", 2), onAll 3 "ccx" 0)]).find? (fun e' => e'.1 == e.1) = some e := by decide +kernel
    rw [hall _ h]
    rfl
  · intro h h2
    rw [Option.map_eq_none_iff, List.find?_eq_none]
    intro e he hh
    have hk : e.1 = k := by simpa using hh
    rcases List.mem_append.1 he with he | he
    · exact h e.2 (by rw [← hk]; exact he)
    · rw [List.mem_singleton] at he
      rw [he] at hk
      exact h2 hk.symm

theorem measured_small (mode : AncillaMode) (c : Nat) (h : c < 2) : (("p", c), measured mode "p" c) ∈ small ∧ (("x", c), measured mode "x" c) ∈ small := by
  interval_cases c <;> cases mode <;> decide +kernel

theorem measured_multi (mode : AncillaMode) (c : Nat) (h : 2 ≤ c) (h' : c ≤ 11) : measured mode "p" c = mcp c ∧ measured mode "x" c = mcx mode c := by
  interval_cases c <;> exact ⟨rfl, rfl⟩

theorem generate_stages (cost : GateCall → Nat) (mode : AncillaMode) : ∃ vp vx, Continues cost mode "p" vp ∧ Continues cost mode "x" vx ∧
    generateProfile cost mode = some (addSpecialCaseData (stages cost mode vp vx)) ∧ (Lemmas.ProfileGen.keys (stages cost mode vp vx)).Nodup := by
  have hG : (Lemmas.ProfileGen.keys (valued cost (flat .general generalGates))).Nodup := by rw [keys_valued]; exact nodup_general
  have hP : (Lemmas.ProfileGen.keys (valued cost (flat .multiControlled multiControlledGates))).Nodup := by rw [keys_valued]; exact nodup_phase
  have hX : (Lemmas.ProfileGen.keys (valued cost (flat .multiControlled (gateCollectionForMode mode)))).Nodup := by rw [keys_valued]; exact nodup_x mode
  have h1 := nodup_update (valued cost (flat .multiControlled multiControlledGates)) _ hG
  -- the costs of the phase gate
  have cp : costs (update (valued cost (flat .general generalGates)) (valued cost (flat .multiControlled multiControlledGates))) "p" 5 = largest cost mode "p" := by
    rw [costs_eq _ _ _ h1, keys_update_filter, keys_valued, keys_valued]
    have : List.foldl (fun ks k => if k ∈ ks then ks else ks ++ [k]) (List.filter (fun k => k.1 == "p") ((flat .general generalGates).map (·.1)))
        (List.filter (fun k => k.1 == "p") ((flat .multiControlled multiControlledGates).map (·.1))) = (List.range 12).map fun c => ("p", c) := by decide +kernel
    rw [this, List.map_map]
    unfold largest measuredCosts
    refine congrArg (fun l : List Int => (l.mergeSort (· ≤ ·)).drop 5) (List.map_congr_left fun c hc => ?_)
    rw [List.mem_range] at hc
    simp only [Function.comp]
    rw [lookup_update _ _ hP, lookup_phase]
    rcases Nat.lt_or_ge c 2 with h2 | h2
    · rw [if_neg (by dsimp only; omega), (lookup_general cost _).1 _ (measured_small mode c h2).1]
      rfl
    · rw [if_pos ⟨rfl, h2, by dsimp only; omega⟩, (measured_multi mode c h2 (by omega)).1]
      rfl
  obtain ⟨vp, p1, p2, p3, p4⟩ := findContinuation_spec _ "p" (by rw [cp]; simp [largest, measuredCosts])
  rw [cp] at p3 p4
  have h2 := nodup_update (numbered "p" 12 vp) _ h1
  have h3 := nodup_update (valued cost (flat .multiControlled (gateCollectionForMode mode))) _ h2
  have cx : costs (update (update (update (valued cost (flat .general generalGates)) (valued cost (flat .multiControlled multiControlledGates))) (numbered "p" 12 vp))
      (valued cost (flat .multiControlled (gateCollectionForMode mode)))) "x" 5 = largest cost mode "x" := by
    rw [costs_eq _ _ _ h3, keys_update_filter, keys_update_filter, keys_update_filter, keys_valued, keys_valued, keys_valued]
    have hn : List.filter (fun k => k.1 == "x") (Lemmas.ProfileGen.keys (numbered "p" 12 vp)) = [] := by
      rw [keys_numbered, List.filter_eq_nil_iff]
      intro k hk
      obtain ⟨c, _, rfl⟩ := List.mem_map.1 hk
      show ¬ ("p" == "x") = true
      decide
    rw [hn]
    have : List.foldl (fun ks k => if k ∈ ks then ks else ks ++ [k]) (List.foldl (fun ks k => if k ∈ ks then ks else ks ++ [k])
          (List.foldl (fun ks k => if k ∈ ks then ks else ks ++ [k]) (List.filter (fun k => k.1 == "x") ((flat .general generalGates).map (·.1)))
          (List.filter (fun k => k.1 == "x") ((flat .multiControlled multiControlledGates).map (·.1)))) [])
        (List.filter (fun k => k.1 == "x") ((flat .multiControlled (gateCollectionForMode mode)).map (·.1))) = (List.range 12).map fun c => ("x", c) := by
      cases mode <;> decide +kernel
    rw [this, List.map_map]
    unfold largest measuredCosts
    refine congrArg (fun l : List Int => (l.mergeSort (· ≤ ·)).drop 5) (List.map_congr_left fun c hc => ?_)
    rw [List.mem_range] at hc
    simp only [Function.comp]
    rw [lookup_update _ _ hX, lookup_x]
    rcases Nat.lt_or_ge c 2 with h2 | h2
    · rw [if_neg (by dsimp only; omega), lookup_update _ _ (nodup_numbered _ _ _), lookup_numbered, if_neg (by dsimp only; omega), lookup_update _ _ hP, lookup_phase,
        if_neg (by dsimp only; omega), (lookup_general cost _).1 _ (measured_small mode c h2).2]
      rfl
    · rw [if_pos ⟨rfl, h2, by dsimp only; omega⟩, (measured_multi mode c h2 (by omega)).2]
      rfl
  obtain ⟨vx, x1, x2, x3, x4⟩ := findContinuation_spec _ "x" (by rw [cx]; simp [largest, measuredCosts])
  rw [cx] at x3 x4
  refine ⟨vp, vx, ⟨p2, p3, p4⟩, ⟨x2, x3, x4⟩, ?_, nodup_update _ _ h3⟩
  unfold generateProfile
  rw [create_eq _ _ _ nodup_general, create_eq _ _ _ nodup_phase, create_eq _ _ _ (nodup_x mode)]
  simp only [p1, x1, Option.bind_eq_bind, Option.bind_some]
  rfl

theorem lookup_stages (cost : GateCall → Nat) (mode : AncillaMode) (vp vx : List Int) (k : String × Nat) :
    lookup (stages cost mode vp vx) k =
      (if k.1 = "x" ∧ 12 ≤ k.2 then vx[k.2 - 12]? else none).or
      ((if k.1 = "x" ∧ 2 ≤ k.2 ∧ k.2 ≤ 11 then some (cost (mcx mode k.2) : Int) else none).or
      ((if k.1 = "p" ∧ 12 ≤ k.2 then vp[k.2 - 12]? else none).or
      ((if k.1 = "p" ∧ 2 ≤ k.2 ∧ k.2 ≤ 11 then some (cost (mcp k.2) : Int) else none).or
      (lookup (valued cost (flat .general generalGates)) k)))) := by
  have hP : (Lemmas.ProfileGen.keys (valued cost (flat .multiControlled multiControlledGates))).Nodup := by rw [keys_valued]; exact nodup_phase
  have hX : (Lemmas.ProfileGen.keys (valued cost (flat .multiControlled (gateCollectionForMode mode)))).Nodup := by rw [keys_valued]; exact nodup_x mode
  unfold stages
  rw [lookup_update _ _ (nodup_numbered _ _ _), lookup_numbered, lookup_update _ _ hX, lookup_x, lookup_update _ _ (nodup_numbered _ _ _), lookup_numbered,
    lookup_update _ _ hP, lookup_phase]

/-- **C76.** Whatever the transpiler's costs are, `generate_profile` does not fail, and the profile contains, without repetition: the measured cost of every
listed gate; of the phase and the X gate with 2 … 11 controls; their continuation to further controls, without a gap; for the five fixed phase gates the
cost of the phase gate with as many controls, unless measured; and nothing else. -/
theorem generated_profile (cost : GateCall → Nat) (mode : AncillaMode) : ∃ d vp vx, generateProfile cost mode = some d ∧ (d.map (·.1)).Nodup ∧
    Continues cost mode "p" vp ∧ Continues cost mode "x" vx ∧
    (∀ e ∈ small, lookup d e.1 = some (cost e.2 : Int)) ∧
    (∀ c, c ≤ 11 → lookup d ("p", c) = some (cost (measured mode "p" c) : Int) ∧ lookup d ("x", c) = some (cost (measured mode "x" c) : Int)) ∧
    (∀ j, lookup d ("p", 12 + j) = vp[j]? ∧ lookup d ("x", 12 + j) = vx[j]?) ∧
    (∀ g ∈ phaseGates, ∀ c, (∀ call, ((g, c), call) ∉ small) → lookup d (g, c) = lookup d ("p", c)) ∧
    (∀ k, (∀ call, (k, call) ∉ small) → k.1 ≠ "p" → k.1 ≠ "x" → k.1 ∉ phaseGates → lookup d k = none) := by
  obtain ⟨vp, vx, hvp, hvx, hd, hn⟩ := generate_stages cost mode
  have hlook : ∀ k, lookup (addSpecialCaseData (stages cost mode vp vx)) k =
      (lookup (stages cost mode vp vx) k).or (if k.1 ∈ phaseGates then lookup (stages cost mode vp vx) ("p", k.2) else none) :=
    fun k => lookup_special _ _ _ k
  have hother : ∀ k : String × Nat, k.1 ≠ "x" → k.1 ≠ "p" → lookup (stages cost mode vp vx) k = lookup (valued cost (flat .general generalGates)) k := by
    intro k h1 h2
    rw [lookup_stages]
    simp [h1, h2]
  have hp : ∀ c, lookup (addSpecialCaseData (stages cost mode vp vx)) ("p", c) = lookup (stages cost mode vp vx) ("p", c) := by
    intro c
    rw [hlook, if_neg (show "p" ∉ phaseGates by decide), Option.or_none]
  have hx : ∀ c, lookup (addSpecialCaseData (stages cost mode vp vx)) ("x", c) = lookup (stages cost mode vp vx) ("x", c) := by
    intro c
    rw [hlook, if_neg (show "x" ∉ phaseGates by decide), Option.or_none]
  refine ⟨_, vp, vx, hd, nodup_special _ _ _ hn, hvp, hvx, ?_, ?_, ?_, ?_, ?_⟩
  · rintro ⟨k, call⟩ he
    have hg := (lookup_general cost k).1 call he
    have hstage : lookup (stages cost mode vp vx) k = some (cost call : Int) := by
      rw [lookup_stages, hg]
      have hc : k.2 ≤ 1 := by
        have : ∀ e ∈ small, e.1.2 ≤ 1 := by decide +kernel
        exact this _ he
      have n1 : ¬ 12 ≤ k.2 := by omega
      have n2 : ¬ 2 ≤ k.2 := by omega
      simp [n1, n2]
    rw [hlook, hstage]
    rfl
  · intro c hc
    rw [hp, hx, lookup_stages, lookup_stages]
    have n1 : ¬ 12 ≤ c := by omega
    rcases Nat.lt_or_ge c 2 with h2 | h2
    · have hs := measured_small mode c h2
      rw [(lookup_general cost _).1 _ hs.1, (lookup_general cost _).1 _ hs.2]
      simp [n1, Nat.not_le.2 h2]
    · have hm := measured_multi mode c h2 hc
      simp [n1, h2, hc, hm]
  · intro j
    have hno : ∀ g, g = "p" ∨ g = "x" → lookup (valued cost (flat .general generalGates)) (g, 12 + j) = none := by
      intro g hg
      refine (lookup_general cost _).2 (fun call hh => ?_) (fun hh => ?_)
      · have : ∀ e ∈ small, e.1.2 ≤ 1 := by decide +kernel
        have := this _ hh
        dsimp only at this
        omega
      · have := (Prod.mk.inj hh).2
        omega
    rw [hp, hx, lookup_stages, lookup_stages, hno "p" (Or.inl rfl), hno "x" (Or.inr rfl)]
    have n1 : ¬ 12 + j ≤ 11 := by omega
    simp [n1]
  · intro g hg c hc
    have h1 : g ≠ "x" ∧ g ≠ "p" := by
      have : ∀ g ∈ phaseGates, g ≠ "x" ∧ g ≠ "p" := by decide
      exact this g hg
    rw [hlook, hp, if_pos hg, hother _ h1.1 h1.2, (lookup_general cost _).2 hc (fun h => h1.1 (Prod.mk.inj h).1)]
    rfl
  · intro k hk h1 h2 h3
    rw [hlook, if_neg h3, hother k h2 h1, (lookup_general cost k).2 hk (fun h => h2 (by rw [h]))]
    rfl

/-- **C76.** The measured multi-controlled circuits, for any number of controls, are those of the specification. -/
theorem measured_circuits (mode : AncillaMode) (c : Nat) : (∀ s ∈ gateCollectionForMode mode, s.call .multiControlled c "x" = mcx mode c) ∧
    ∀ s ∈ multiControlledGates, s.call .multiControlled c "p" = mcp c := by
  constructor
  · intro s hs
    cases mode <;> simp only [gateCollectionForMode, List.mem_singleton] at hs <;> subst hs <;>
      simp [GateSet.call, createMultiControlledGate, mcx, ancillas, List.range_succ, Nat.add_comm] <;> decide +kernel
  · intro s hs
    simp only [multiControlledGates, List.mem_singleton] at hs
    subst hs
    simp [GateSet.call, createMultiControlledGate, mcp, onAll, List.range_succ, Nat.add_comm]

/-- **C76.** They are well formed: controls, target and additional qubits are exactly the qubits of the circuit, each once; a gate with `c` controls
has `c + 1` operands, and an X gate the additional qubits its mode asks for. -/
theorem measured_well_formed (mode : AncillaMode) (c : Nat) :
    (mcx mode c).operands ++ (mcx mode c).ancillas = List.range (mcx mode c).width ∧ (mcx mode c).operands.length = c + 1 ∧
    (mcp c).operands = List.range (mcp c).width ∧ (mcp c).operands.length = c + 1 ∧
    (mcx mode c).ancillas.length = match mode with | .noAncilla => 0 | .recursion => if 5 ≤ c then 1 else 0 | .vChain => c - 2 := by
  refine ⟨?_, by simp [mcx], by simp [mcp, onAll], by simp [mcp, onAll], ?_⟩
  · simp only [mcx]
    have := List.range'_append_1 (s := 0) (m := c + 1) (n := ancillas mode c)
    rw [Nat.zero_add] at this
    rw [List.range_eq_range', List.range_eq_range', this]
  · cases mode
    · simp [mcx, ancillas]
    · simp only [mcx, ancillas, List.length_range']
      split <;> split <;> omega
    · simp [mcx, ancillas]

/-- Every name in a profile can be written, and no name or number gets out of range. -/
theorem generated_keys {cost : GateCall → Nat} {mode : AncillaMode} {d : Data} (h : generateProfile cost mode = some d) :
    (d.map (·.1)).Nodup ∧ ∀ e ∈ d, e.1.1 ∈ names ∧ e.1.2 ≤ 127 := by
  obtain ⟨d', vp, vx, h1, h2, h3, h4, h5, h6, h7, h8, h9⟩ := generated_profile cost mode
  rw [h] at h1
  cases h1
  refine ⟨h2, fun e he => ?_⟩
  have hs : (lookup d e.1).isSome := lookup_isSome.2 (List.mem_map_of_mem he)
  have hsmall : ∀ e ∈ small, e.1.1 ∈ names ∧ e.1.2 ≤ 1 := by decide +kernel
  by_cases hin : ∃ call, (e.1, call) ∈ small
  · obtain ⟨call, hc⟩ := hin
    have := hsmall _ hc
    exact ⟨this.1, by have := this.2; dsimp only at this; omega⟩
  · have hno : ∀ call, (e.1, call) ∉ small := fun call hc => hin ⟨call, hc⟩
    have bound : ∀ g, (g = "p" ∨ g = "x") → (lookup d (g, e.1.2)).isSome → e.1.2 ≤ 127 := by
      intro g hg hsome
      by_contra hc
      obtain ⟨j, hj⟩ : ∃ j, e.1.2 = 12 + j := ⟨e.1.2 - 12, by omega⟩
      rw [hj] at hsome
      have p := h3.1
      have x := h4.1
      rcases hg with rfl | rfl
      · rw [(h7 j).1, List.getElem?_eq_none (by omega)] at hsome
        cases hsome
      · rw [(h7 j).2, List.getElem?_eq_none (by omega)] at hsome
        cases hsome
    by_cases hp : e.1.1 = "p"
    · exact ⟨by rw [hp]; decide, bound "p" (Or.inl rfl) (by rw [← hp]; exact hs)⟩
    · by_cases hx : e.1.1 = "x"
      · exact ⟨by rw [hx]; decide, bound "x" (Or.inr rfl) (by rw [← hx]; exact hs)⟩
      · by_cases hg : e.1.1 ∈ phaseGates
        · have := h8 e.1.1 hg e.1.2 hno
          refine ⟨?_, bound "p" (Or.inl rfl) (by rw [← this]; exact hs)⟩
          have hsub : ∀ g ∈ phaseGates, g ∈ names := by decide
          exact hsub _ hg
        · rw [h9 e.1 hno hp hx hg] at hs
          cases hs

/-- **C76.** The file `generate_profile` writes is the one `verify_compilation` with the same level and mode looks for, and reading it back gives, for every gate
and number of controls, exactly the cost of the dictionary, as a number modulo 2^64. -/
theorem generated_file_read (cost : GateCall → Nat) (mode : AncillaMode) (dir level qiskit : String)
    (hnl : '\n' ∉ dir.toList ∧ '\n' ∉ level.toList ∧ '\n' ∉ qiskit.toList)
    (opOf : String → Option OpType) (hknown : ∀ g ∈ names, (opOf g).isSome) (hinj : ∀ g ∈ names, ∀ g' ∈ names, opOf g = opOf g' → g = g') :
    ∃ d txt t, generateProfile cost mode = some d ∧ generateProfileFile cost dir level mode qiskit = some (dir ++ profileName level mode, txt) ∧
      populateFromFile opOf (some txt) = .ok t ∧
      (∀ g ∈ names, ∀ op, opOf g = some op → ∀ c, t.find (op, c) = (lookup d (g, c)).bind asSize) ∧
      ∀ {V : Type} (conv : Kind → V → Option FieldVal) (default : Configuration) (given : Option Configuration) (kwargs : List (String × V)),
        (compilationConfig conv default given kwargs dir level mode).2 = none →
        (compilationConfig conv default given kwargs dir level mode).1.application.profile = dir ++ profileName level mode := by
  obtain ⟨d, -, -, hd, -⟩ := generated_profile cost mode
  obtain ⟨hn, hk⟩ := generated_keys hd
  have hgood : ∀ g ∈ names, GoodName g := by
    have : ∀ g ∈ names, g.toList ≠ [] ∧ (∀ c ∈ g.toList, isSpaceC c = false) ∧ g.toList.head? ≠ some '#' := by decide +kernel
    exact this
  have hheader : '\n' ∉ (dir ++ profileName level mode).toList ++ qiskit.toList := by
    have hm : '\n' ∉ mode.str.toList := by cases mode <;> decide +kernel
    have a : '\n' ∉ "qiskit_O".toList := by decide +kernel
    have b : '\n' ∉ "_".toList := by decide +kernel
    have e : '\n' ∉ ".profile".toList := by decide +kernel
    simp only [profileName, String.toList_append, List.mem_append, not_or]
    exact ⟨⟨hnl.1, ⟨⟨⟨a, hnl.2.1⟩, b⟩, hm⟩, e⟩, hnl.2.2⟩
  obtain ⟨t, ht, hf⟩ := data_read opOf _ hheader d (fun e he => ⟨hgood _ (hk e he).1, hknown _ (hk e he).1⟩)
    (fun e he => by have := (hk e he).2; unfold szMod; omega)
  refine ⟨d, _, t, hd, ?_, ht, ?_, ?_⟩
  · simp only [generateProfileFile, hd, Option.bind_eq_bind, Option.bind_some]
    rfl
  · intro g hg op hop c
    rw [hf (op, c)]
    exact findSome_lookup opOf d hn g op c hop (fun e he h => hinj _ (hk e he).1 _ hg (by rw [h, hop]))
  · intro V conv default given kwargs hok
    unfold compilationConfig at hok ⊢
    split at hok
    · cases hok
    · rename_i c heq
      simp only [verifyConfig, Option.getD_some]
      rfl

/-! ## Costs are not negative -/

theorem largest_length (cost : GateCall → Nat) (mode : AncillaMode) (g : String) : (largest cost mode g).length = 7 := by
  simp [largest, measuredCosts]

theorem largest_nonneg (cost : GateCall → Nat) (mode : AncillaMode) (g : String) : ∀ v ∈ largest cost mode g, 0 ≤ v := by
  intro v hv
  have := List.mem_of_mem_drop hv
  rw [List.mem_mergeSort] at this
  obtain ⟨c, -, rfl⟩ := List.mem_map.1 this
  exact Int.natCast_nonneg _

theorem largest_sorted (cost : GateCall → Nat) (mode : AncillaMode) (g : String) : (largest cost mode g).Pairwise (· ≤ ·) := by
  have : ((measuredCosts cost mode g).mergeSort (· ≤ ·)).Pairwise (fun a b => decide (a ≤ b) = true) :=
    List.pairwise_mergeSort (by intro a b c h1 h2; simp only [decide_eq_true_eq] at *; omega)
      (by intro a b; simp only [Bool.or_eq_true, decide_eq_true_eq]; omega) _
  exact (this.imp (by simp)).sublist (List.drop_sublist _ _)

theorem roundEven_nonneg {q : ℚ} (h : 0 ≤ q) : 0 ≤ roundEven q := by
  have : 0 ≤ ⌊q⌋ := Int.floor_nonneg.2 h
  unfold roundEven
  split
  · exact this
  · split
    · omega
    · split <;> omega

/-- The sequence is sorted and not negative as long as a single factor or the last difference continues it. -/
def Steady (sq : List Int) : Prop := (∀ v ∈ sq, 0 ≤ v) ∧ sq.Pairwise (· ≤ ·)

theorem Steady.linear {sq : List Int} (h : Steady sq) (hl : 2 ≤ sq.length) {t : Int} (ht : nextTerm Recurrence.linear sq = some t) : Steady (sq ++ [t]) := by
  have h2 : Recurrence.linear.1 = 2 := rfl
  unfold nextTerm at ht
  rw [if_pos (by rw [h2]; exact hl), Option.some.injEq] at ht
  have hsum : ∑ j : Fin Recurrence.linear.1, Recurrence.linear.2 j * (sq.getD (sq.length - Recurrence.linear.1 + j) 0 : ℚ)
      = ((2 * sq.getD (sq.length - 1) 0 - sq.getD (sq.length - 2) 0 : Int) : ℚ) := by
    show ∑ j : Fin 2, (![-1, 2] : Fin 2 → ℚ) j * (sq.getD (sq.length - 2 + j) 0 : ℚ) = _
    rw [Fin.sum_univ_two]
    have e : sq.length - 2 + 1 = sq.length - 1 := by omega
    simp [e]
    ring
  rw [hsum, roundEven_int] at ht
  have ha : sq.getD (sq.length - 2) 0 = sq[sq.length - 2]'(by omega) := by simp [List.getD_eq_getElem?_getD, show sq.length - 2 < sq.length by omega]
  have hb : sq.getD (sq.length - 1) 0 = sq[sq.length - 1]'(by omega) := by simp [List.getD_eq_getElem?_getD, show sq.length - 1 < sq.length by omega]
  rw [ha, hb] at ht
  have hab := List.pairwise_iff_getElem.1 h.2 (sq.length - 2) (sq.length - 1) (by omega) (by omega) (by omega)
  have hb0 := h.1 _ (List.getElem_mem (show sq.length - 1 < sq.length by omega))
  have hmax : ∀ v ∈ sq, v ≤ sq[sq.length - 1]'(by omega) := by
    intro v hv
    obtain ⟨i, hi, rfl⟩ := List.getElem_of_mem hv
    rcases Nat.lt_or_ge i (sq.length - 1) with hlt | hge
    · exact List.pairwise_iff_getElem.1 h.2 i (sq.length - 1) hi (by omega) hlt
    · have : i = sq.length - 1 := by omega
      subst this
      exact le_refl _
  refine ⟨?_, ?_⟩
  · intro v hv
    rcases List.mem_append.1 hv with hv | hv
    · exact h.1 v hv
    · rw [List.mem_singleton] at hv
      omega
  · rw [List.pairwise_append]
    refine ⟨h.2, by simp, fun a ha b hb => ?_⟩
    rw [List.mem_singleton] at hb
    have := hmax a ha
    omega

/-- The costs are a quadratic function of the number of controls, which opens upwards: a recurrence of order three continues them. -/
def Quadratic (seq : List Int) : Prop :=
  checkRecurrence seq 1 = none ∧ checkRecurrence seq 2 = none ∧ checkRecurrence seq 3 = some ![1, -3, 3] ∧
    2 * seq.getD 1 0 ≤ seq.getD 0 0 + seq.getD 2 0

/-- The recurrence found has no negative coefficient. -/
def Additive (seq : List Int) : Prop :=
  ∃ (o : Nat) (c : Fin o → ℚ), 1 ≤ o ∧ o ≤ 3 ∧ checkRecurrence seq o = some c ∧ (∀ o', 1 ≤ o' → o' < o → checkRecurrence seq o' = none) ∧ ∀ i, 0 ≤ c i

/-- The measured costs are continued by a factor (a recurrence of order one), by a constant difference (no recurrence, or that one), by a recurrence
without negative coefficients, or by a quadratic function that opens upwards. -/
def Plain (cost : GateCall → Nat) (mode : AncillaMode) (g : String) : Prop :=
  (∃ c, checkRecurrence (largest cost mode g) 1 = some c) ∨ (∀ o, 1 ≤ o → o ≤ 3 → checkRecurrence (largest cost mode g) o = none) ∨
  (checkRecurrence (largest cost mode g) 1 = none ∧ checkRecurrence (largest cost mode g) 2 = some ![-1, 2]) ∨
  Additive (largest cost mode g) ∨ Quadratic (largest cost mode g)

/-- What the continued sequence keeps. -/
theorem continues_invariant {cost : GateCall → Nat} {mode : AncillaMode} {g : String} {vs : List Int} (h : Continues cost mode g vs) (P : List Int → Prop)
    (h0 : P (largest cost mode g))
    (hs : ∀ sq t, 7 ≤ sq.length → P sq → nextTerm (coefficients (largest cost mode g) 3) sq = some t → P (sq ++ [t])) :
    P (largest cost mode g ++ vs) := by
  have hl7 := largest_length cost mode g
  have hst : ∀ j, j ≤ vs.length → P (largest cost mode g ++ vs.take j) := by
    intro j
    induction j with
    | zero =>
      intro _
      rw [List.take_zero, List.append_nil]
      exact h0
    | succ j ih =>
      intro hj
      obtain ⟨t, a, b, -⟩ := h.2.1 j (by omega)
      have := hs _ _ (by simp only [List.length_append]; omega) (ih (by omega)) b
      rw [List.take_add_one, a]
      simpa using this
  simpa using hst vs.length (le_refl _)

theorem additive_nonneg {cost : GateCall → Nat} {mode : AncillaMode} {g : String} {vs : List Int} (h : Continues cost mode g vs)
    (hp : Additive (largest cost mode g)) : ∀ v ∈ vs, 0 ≤ v := by
  obtain ⟨o, c, h1, h3, hc, hlow, hpos⟩ := hp
  have hco : coefficients (largest cost mode g) 3 = ⟨o, c⟩ := by
    unfold coefficients
    rw [firstFit_at hc 3 1 h1 (by omega) hlow]
    rfl
  have := continues_invariant h (fun sq => ∀ v ∈ sq, 0 ≤ v) (largest_nonneg cost mode g) (by
    intro sq t hl hP ht v hv
    rw [hco] at ht
    unfold nextTerm at ht
    rw [if_pos (by simp only; omega), Option.some.injEq] at ht
    rcases List.mem_append.1 hv with hv | hv
    · exact hP v hv
    · rw [List.mem_singleton] at hv
      rw [hv, ← ht]
      refine roundEven_nonneg (Finset.sum_nonneg fun i _ => mul_nonneg (hpos i) ?_)
      have : 0 ≤ sq.getD (sq.length - o + i) 0 := by
        rw [List.getD_eq_getElem?_getD]
        rcases hq : sq[sq.length - o + (i : Nat)]? with _ | w
        · simp
        · exact hP w (List.mem_of_getElem? hq)
      exact_mod_cast this)
  exact fun v hv => this v (by simp [hv])

/-- The last three values of a sequence that grows faster and faster. -/
def Convex (sq : List Int) : Prop :=
  (∀ v ∈ sq, 0 ≤ v) ∧ ∃ pre a b c, sq = pre ++ [a, b, c] ∧ b ≤ c ∧ 2 * b ≤ a + c

theorem cubic_next (pre : List Int) (a b c : Int) : nextTerm ⟨3, ![1, -3, 3]⟩ (pre ++ [a, b, c]) = some (a - 3 * b + 3 * c) := by
  unfold nextTerm
  rw [if_pos (by simp), Option.some.injEq]
  have hsum : ∑ j : Fin 3, (![1, -3, 3] : Fin 3 → ℚ) j * (((pre ++ [a, b, c]).getD ((pre ++ [a, b, c]).length - 3 + j) 0 : Int) : ℚ)
      = ((a - 3 * b + 3 * c : Int) : ℚ) := by
    rw [Fin.sum_univ_three]
    have e : (pre ++ [a, b, c]).length - 3 = pre.length := by simp
    rw [e]
    simp [List.getD_eq_getElem?_getD]
    ring
  show roundEven (∑ j : Fin 3, (![1, -3, 3] : Fin 3 → ℚ) j * (((pre ++ [a, b, c]).getD ((pre ++ [a, b, c]).length - 3 + j) 0 : Int) : ℚ)) = _
  rw [hsum, roundEven_int]

theorem quadratic_nonneg {cost : GateCall → Nat} {mode : AncillaMode} {g : String} {vs : List Int} (h : Continues cost mode g vs)
    (hp : Quadratic (largest cost mode g)) : ∀ v ∈ vs, 0 ≤ v := by
  obtain ⟨q1, q2, q3, hconv⟩ := hp
  have hco : coefficients (largest cost mode g) 3 = ⟨3, ![1, -3, 3]⟩ := by
    unfold coefficients
    rw [firstFit_at q3 3 1 (by omega) (by omega) (fun o' a b => by
      rcases (by omega : o' = 1 ∨ o' = 2) with rfl | rfl
      · exact q1
      · exact q2)]
    rfl
  have hsound := (recurrence_sound q3).2.2
  have hsort := largest_sorted cost mode g
  have hnn := largest_nonneg cost mode g
  have hl7 := largest_length cost mode g
  have h0 : Convex (largest cost mode g) := by
    refine ⟨hnn, ?_⟩
    generalize largest cost mode g = sq at *
    match sq, hl7 with
    | [s0, s1, s2, s3, s4, s5, s6], _ =>
      have e0 := hsound 0 (by simp)
      have e1 := hsound 1 (by simp)
      have e2 := hsound 2 (by simp)
      have e3 := hsound 3 (by simp)
      simp [Fin.sum_univ_three] at e0 e1 e2 e3
      have key : ∀ x y z w : Int, |(x : ℚ) + -(3 * (y : ℚ)) + 3 * (z : ℚ) - (w : ℚ)| ≤ 100⁻¹ → w = x - 3 * y + 3 * z := by
        intro x y z w hh
        have h2 : |((x - 3 * y + 3 * z - w : Int) : ℚ)| < 1 := by
          push_cast
          refine lt_of_le_of_lt (le_of_eq ?_) (lt_of_le_of_lt hh (by norm_num))
          congr 1
          ring
        rw [← Int.cast_abs] at h2
        have h3 : |x - 3 * y + 3 * z - w| < 1 := by exact_mod_cast h2
        have := Int.abs_lt_one_iff.1 h3
        omega
      have k0 := key _ _ _ _ e0
      have k1 := key _ _ _ _ e1
      have k2 := key _ _ _ _ e2
      have k3 := key _ _ _ _ e3
      simp at hsort hconv
      refine ⟨[s0, s1, s2, s3], s4, s5, s6, rfl, by omega, by omega⟩
  have := continues_invariant h Convex h0 (by
    rintro sq t hl ⟨hP, pre, a, b, c, rfl, hbc, habc⟩ ht
    rw [hco, cubic_next, Option.some.injEq] at ht
    have hc0 := hP c (by simp)
    refine ⟨fun v hv => ?_, pre ++ [a], b, c, t, by simp, by omega, by omega⟩
    rcases List.mem_append.1 hv with hv | hv
    · exact hP v hv
    · rw [List.mem_singleton] at hv
      omega)
  exact fun v hv => this.1 v (by simp [hv])

theorem continues_nonneg {cost : GateCall → Nat} {mode : AncillaMode} {g : String} {vs : List Int} (h : Continues cost mode g vs) (hp : Plain cost mode g) :
    ∀ v ∈ vs, 0 ≤ v := by
  have hl7 := largest_length cost mode g
  have hp : (∃ c, checkRecurrence (largest cost mode g) 1 = some c) ∨ ((∀ o, 1 ≤ o → o ≤ 3 → checkRecurrence (largest cost mode g) o = none) ∨
      (checkRecurrence (largest cost mode g) 1 = none ∧ checkRecurrence (largest cost mode g) 2 = some ![-1, 2])) ∨
      Additive (largest cost mode g) ∨ Quadratic (largest cost mode g) := by
    rcases hp with h | h | h | h
    · exact .inl h
    · exact .inr (.inl (.inl h))
    · exact .inr (.inl (.inr h))
    · exact .inr (.inr h)
  rcases or_assoc.2 hp with hp | hp | hp
  swap
  · exact additive_nonneg h hp
  swap
  · exact quadratic_nonneg h hp
  have hstep : ∀ j, j ≤ vs.length → ∀ v ∈ vs.take j, 0 ≤ v := by
    rcases hp with ⟨c, hc⟩ | hlin
    · have hco : coefficients (largest cost mode g) 3 = ⟨1, c⟩ := by
        unfold coefficients
        rw [firstFit_at hc 3 1 (le_refl _) (by omega) (by intro o' h1 h2; omega)]
        rfl
      have hc0 : 0 ≤ c 0 := by
        obtain ⟨-, a, -⟩ := recurrence_sound hc
        have a0 := a 0 (by omega)
        rw [Fin.sum_univ_one] at a0
        simp only [Fin.isValue, Fin.val_zero, Nat.add_zero, Nat.zero_add] at a0
        have n0 := largest_nonneg cost mode g _ (List.getElem_mem (show 0 < (largest cost mode g).length by omega))
        have n1 := largest_nonneg cost mode g _ (List.getElem_mem (show 1 < (largest cost mode g).length by omega))
        rw [List.getD_eq_getElem?_getD, List.getD_eq_getElem?_getD, List.getElem?_eq_getElem (by omega), List.getElem?_eq_getElem (by omega)] at a0
        simp only [Option.getD_some] at a0
        have hne : (largest cost mode g)[0]'(by omega) ≠ 0 := by
          intro hz
          unfold checkRecurrence at hc
          rw [if_neg (by omega), if_pos] at hc
          · cases hc
          · rw [Matrix.det_fin_one, mat]
            simp only [Fin.isValue, Fin.val_zero, Nat.add_zero]
            rw [List.getD_eq_getElem?_getD, List.getElem?_eq_getElem (by omega), hz]
            rfl
        have hpos : (0 : ℚ) < ((largest cost mode g)[0]'(by omega) : Int) := by exact_mod_cast lt_of_le_of_ne n0 (Ne.symm hne)
        have h1' : (0 : ℚ) ≤ ((largest cost mode g)[1]'(by omega) : Int) := by exact_mod_cast n1
        by_contra hneg
        have : c 0 * ((largest cost mode g)[0]'(by omega) : Int) < 0 := mul_neg_of_neg_of_pos (not_le.1 hneg) hpos
        linarith
      intro j
      induction j with
      | zero => intro _ v hv; simp at hv
      | succ j ih =>
        intro hj v hv
        obtain ⟨t, a, b, -⟩ := h.2.1 j (by omega)
        rw [List.take_add_one, a, List.mem_append] at hv
        rcases hv with hv | hv
        · exact ih (by omega) v hv
        · simp only [Option.toList_some, List.mem_singleton] at hv
          subst hv
          rw [hco] at b
          unfold nextTerm at b
          rw [if_pos (by simp only [List.length_append]; omega), Option.some.injEq] at b
          rw [← b]
          refine roundEven_nonneg (Finset.sum_nonneg fun i _ => ?_)
          have hi : i = 0 := Subsingleton.elim _ _
          subst hi
          refine mul_nonneg hc0 ?_
          have : 0 ≤ (largest cost mode g ++ vs.take j).getD ((largest cost mode g ++ vs.take j).length - 1 + (0 : Fin 1)) 0 := by
            rw [List.getD_eq_getElem?_getD]
            rcases hq : (largest cost mode g ++ vs.take j)[(largest cost mode g ++ vs.take j).length - 1 + ((0 : Fin 1) : Nat)]? with _ | w
            · simp
            · have hw := List.mem_of_getElem? hq
              rw [Option.getD_some]
              rcases List.mem_append.1 hw with hw | hw
              · exact largest_nonneg cost mode g w hw
              · exact ih (by omega) w hw
          exact_mod_cast this
    · have hco : coefficients (largest cost mode g) 3 = Recurrence.linear := by
        unfold coefficients
        rcases hlin with hnone | ⟨h1, h2⟩
        · have : firstFit (largest cost mode g) (List.range' 1 3) = none := by
            simp only [List.range', firstFit, hnone 1 (by omega) (by omega), hnone 2 (by omega) (by omega), hnone 3 (by omega) (by omega)]
          rw [this]
          rfl
        · rw [firstFit_at h2 3 1 (by omega) (by omega) (fun o' a b => by
            have : o' = 1 := by omega
            rw [this]
            exact h1)]
          rfl
      have hst : ∀ j, j ≤ vs.length → Steady (largest cost mode g ++ vs.take j) := by
        intro j
        induction j with
        | zero =>
          intro _
          rw [List.take_zero, List.append_nil]
          exact ⟨largest_nonneg cost mode g, largest_sorted cost mode g⟩
        | succ j ih =>
          intro hj
          obtain ⟨t, a, b, -⟩ := h.2.1 j (by omega)
          rw [hco] at b
          have := (ih (by omega)).linear (by simp only [List.length_append]; omega) b
          rw [List.take_add_one, a]
          simpa using this
      intro j hj v hv
      exact (hst j hj).1 v (by simp [hv])
  intro v hv
  exact hstep vs.length (le_refl _) v (by simpa using hv)

/-- **C77.** Costs in a generated profile are negative only if they are continued by a recurrence of order two or three with a negative coefficient, other than a constant
difference or a quadratic function that opens upwards: otherwise every cost is non-negative, … -/
theorem generated_nonneg_partial {cost : GateCall → Nat} {mode : AncillaMode} (hp : Plain cost mode "p") (hx : Plain cost mode "x") {d : Data}
    (hd : generateProfile cost mode = some d) (k : String × Nat) (v : Int) (hv : lookup d k = some v) : 0 ≤ v := by
  obtain ⟨d', vp, vx, h1, -, h3, h4, h5, h6, h7, h8, h9⟩ := generated_profile cost mode
  rw [hd] at h1
  cases h1
  have base : ∀ c, (∀ v, lookup d ("p", c) = some v → 0 ≤ v) ∧ ∀ v, lookup d ("x", c) = some v → 0 ≤ v := by
    intro c
    rcases Nat.lt_or_ge c 12 with hc | hc
    · rw [(h6 c (by omega)).1, (h6 c (by omega)).2]
      constructor <;> intro v hv <;> cases hv <;> exact Int.natCast_nonneg _
    · obtain ⟨j, rfl⟩ : ∃ j, c = 12 + j := ⟨c - 12, by omega⟩
      rw [(h7 j).1, (h7 j).2]
      exact ⟨fun v hv => continues_nonneg h3 hp v (List.mem_of_getElem? hv), fun v hv => continues_nonneg h4 hx v (List.mem_of_getElem? hv)⟩
  by_cases hin : ∃ call, (k, call) ∈ small
  · obtain ⟨call, hc⟩ := hin
    rw [h5 _ hc] at hv
    cases hv
    exact Int.natCast_nonneg _
  · have hno : ∀ call, (k, call) ∉ small := fun call hc => hin ⟨call, hc⟩
    obtain ⟨g, c⟩ := k
    by_cases hgp : g = "p"
    · subst hgp; exact (base c).1 v hv
    · by_cases hgx : g = "x"
      · subst hgx; exact (base c).2 v hv
      · by_cases hg : g ∈ phaseGates
        · rw [h8 g hg c hno] at hv
          exact (base c).1 v hv
        · rw [h9 _ hno hgp hgx hg] at hv
          cases hv

/-- Measured costs are read as they are, and continued costs are below a million. -/
theorem generated_bound {cost : GateCall → Nat} {mode : AncillaMode} (B : Nat) (hB : 1000000 ≤ B) (hcost : ∀ call, cost call < B) {d : Data}
    (hd : generateProfile cost mode = some d) (k : String × Nat) (v : Int) (hv : lookup d k = some v) : v < B := by
  obtain ⟨d', vp, vx, h1, -, h3, h4, h5, h6, h7, h8, h9⟩ := generated_profile cost mode
  rw [hd] at h1
  cases h1
  have cont : ∀ (g : String) (vs : List Int), Continues cost mode g vs → ∀ (j : Nat) (v : Int), vs[j]? = some v → v < B := by
    intro g vs h j v hv
    obtain ⟨hlt, -⟩ := List.getElem?_eq_some_iff.1 hv
    obtain ⟨t, a, -, b⟩ := h.2.1 j hlt
    rw [hv] at a
    cases a
    omega
  have base : ∀ c, (∀ v, lookup d ("p", c) = some v → v < B) ∧ ∀ v, lookup d ("x", c) = some v → v < B := by
    intro c
    rcases Nat.lt_or_ge c 12 with hc | hc
    · rw [(h6 c (by omega)).1, (h6 c (by omega)).2]
      constructor <;> intro v hv <;> cases hv <;> exact_mod_cast hcost _
    · obtain ⟨j, rfl⟩ : ∃ j, c = 12 + j := ⟨c - 12, by omega⟩
      rw [(h7 j).1, (h7 j).2]
      exact ⟨fun v hv => cont "p" vp h3 j v hv, fun v hv => cont "x" vx h4 j v hv⟩
  by_cases hin : ∃ call, (k, call) ∈ small
  · obtain ⟨call, hc⟩ := hin
    rw [h5 _ hc] at hv
    cases hv
    exact_mod_cast hcost _
  · have hno : ∀ call, (k, call) ∉ small := fun call hc => hin ⟨call, hc⟩
    obtain ⟨g, c⟩ := k
    by_cases hgp : g = "p"
    · subst hgp; exact (base c).1 v hv
    · by_cases hgx : g = "x"
      · subst hgx; exact (base c).2 v hv
      · by_cases hg : g ∈ phaseGates
        · rw [h8 g hg c hno] at hv
          exact (base c).1 v hv
        · rw [h9 _ hno hgp hgx hg] at hv
          cases hv

/-- **C77.** … and then the reader gets every cost of the dictionary unchanged (if the measured costs fit into 64 bits). -/
theorem generated_read_exact_partial {cost : GateCall → Nat} {mode : AncillaMode} (hp : Plain cost mode "p") (hx : Plain cost mode "x")
    (hcost : ∀ call, cost call < 2 ^ 64) (dir level qiskit : String) (hnl : '\n' ∉ dir.toList ∧ '\n' ∉ level.toList ∧ '\n' ∉ qiskit.toList)
    (opOf : String → Option OpType) (hknown : ∀ g ∈ names, (opOf g).isSome) (hinj : ∀ g ∈ names, ∀ g' ∈ names, opOf g = opOf g' → g = g') :
    ∃ d txt t, generateProfile cost mode = some d ∧ generateProfileFile cost dir level mode qiskit = some (dir ++ profileName level mode, txt) ∧
      populateFromFile opOf (some txt) = .ok t ∧
      ∀ g ∈ names, ∀ op, opOf g = some op → ∀ c, (t.find (op, c)).map (fun n : Nat => (n : Int)) = lookup d (g, c) := by
  obtain ⟨d, txt, t, h1, h2, h3, h4, -⟩ := generated_file_read cost mode dir level qiskit hnl opOf hknown hinj
  refine ⟨d, txt, t, h1, h2, h3, fun g hg op hop c => ?_⟩
  rw [h4 g hg op hop c]
  rcases hv : lookup d (g, c) with _ | v
  · rfl
  · have a := generated_nonneg_partial hp hx h1 _ _ hv
    have b := generated_bound (2 ^ 64) (by norm_num) hcost h1 _ _ hv
    have hs : asSize v = some v.toNat := by
      unfold asSize
      rw [if_pos (by omega), Int.emod_eq_of_lt a (by exact_mod_cast b)]
    rw [Option.bind_some, hs, Option.map_some, Int.toNat_of_nonneg a]

end QCEC.Props
