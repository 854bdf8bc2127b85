import Verif.Lemmas.Routing
import Verif.Props.PythonVerify
import Verif.Props.AncillasOneSide
/-!
# Properties: correctly compiled circuits are accepted (C88)
-/
namespace QCEC.Props
open QCEC QCEC.Py QCEC.Mgr QCEC.Prep QCEC.Spec QCEC.Spec.Py QCEC.Spec.Wide QCEC.Wide

variable {V : Type} {conv : Py.Kind → V → Option FieldVal} {cfg : Configuration} {v : Criterion} {c c' d : Circ WOp}

/-- **C88.** A compilation is equivalent to the original circuit: inserted SWAPs, replaced gates and layouts do not change what is compared … -/
theorem compiled_equal (hc : Runnable c) (hc' : Runnable c') (h : Compiled c c') : Equal c c' := fun v hv x => by
  rw [one_mul]
  exact compiled_output hc hc' h hv x

theorem compiled_ancillas (h : Compiled c c') : SameAncillas c c' ∧ AncillasLast c :=
  ⟨fun q hq _ => by rw [(h.data q hq).1, (h.data q hq).2], fun q q' hq hq' e => by rw [(h.data q (by omega)).1] at e; cases e⟩

theorem compiled_none (h : Compiled c c') : NoCommonAncilla c c' := fun q hq _ e => by rw [(h.data q hq).1] at e; cases e.1

/-- … and an uninterrupted call accepts it, or gives up (see C82), or skips identical gates of the two circuits although they act on different logical
qubits (`Misled`, see `compiled_rejected`). -/
theorem compiled_accepted_partial (hc : Runnable c) (hc' : Runnable c') (h : Compiled c c') (hv : FullyChecked lib conv c c' cfg v) :
    v = .equivalent ∨ v = .noInformation ∧ ParallelWithBoth cfg ∨ Misled lib c c' cfg [] := by
  obtain ⟨ha, hl⟩ := compiled_ancillas h
  rcases fullyChecked_decides hv hc hc' ha hl with hd | ⟨hd, _⟩ | hd | hd
  · exact Or.inl (hd.equivalent.2 (compiled_equal hc hc' h))
  · exact Or.inl hd
  · exact Or.inr (Or.inl hd)
  · exact Or.inr (Or.inr hd)

/-- No call, interrupted or not, rejects a compilation, not even up to a phase, unless it is misled. -/
theorem compiled_not_refuted_partial (hc : Runnable c) (hc' : Runnable c') (h : Compiled c c') (hv : Checked lib conv c c' cfg v) :
    (v ≠ .notEquivalent ∧ v ≠ .equivalentUpToGlobalPhase ∧ v ≠ .equivalentUpToPhase) ∨ Misled lib c c' cfg [] := by
  obtain ⟨ha, hl⟩ := compiled_ancillas h
  have he := compiled_equal hc hc' h
  obtain ⟨d, imp, w, hw, i₁, i₂, res, hr, hp, hs1, hs2, h1, h2, rfl⟩ := hv
  rcases call_verdict_true hw hr hp hs1 hs2 h1 h2 hc hc' with hv | ⟨hv, _⟩ | hm
  · have ht := verdict_same_ancillas hc hc' ha hl hv
    exact Or.inl ⟨fun e => ht.notEquivalent e ⟨1, by simp, he⟩, fun e => (ht.phase e).2 he, ht.never⟩
  · rw [hv]
    simp
  · exact Or.inr hm

/-- If the compiled circuit really uses additional qubits of the device (after the optimization passes), an uninterrupted call that does not use lookahead
accepts it or gives up, without further exceptions: the product of the circuits is singular then and no gates are skipped. -/
theorem compiled_wider_accepted (hc : Runnable c) (hc' : Runnable c') (h : Compiled c c') (hs : SharedAncillaUsed lib c c' cfg)
    (hl : cfg.application.alternatingScheme ≠ .lookahead) (hv : FullyChecked lib conv c c' cfg v) :
    v = .equivalent ∨ v = .noInformation ∧ ParallelWithBoth cfg := by
  rcases compiled_accepted_partial hc hc' h hv with e | e | e
  · exact Or.inl e
  · exact Or.inr e
  · exact absurd e (shared_ancilla_not_misled hc hc' hs hl (not_misread hc hc' (compiled_none h) cfg))

/-- … and no call at all rejects it. -/
theorem compiled_wider_not_refuted (hc : Runnable c) (hc' : Runnable c') (h : Compiled c c') (hs : SharedAncillaUsed lib c c' cfg)
    (hl : cfg.application.alternatingScheme ≠ .lookahead) (hv : Checked lib conv c c' cfg v) :
    v ≠ .notEquivalent ∧ v ≠ .equivalentUpToGlobalPhase ∧ v ≠ .equivalentUpToPhase := by
  rcases compiled_not_refuted_partial hc hc' h hv with e | e
  · exact e
  · exact absurd e (shared_ancilla_not_misled hc hc' hs hl (not_misread hc hc' (compiled_none h) cfg))

/-- The verdict about a compiled circuit is the verdict about what was compiled: if `c'` is a compilation of `d`, an uninterrupted call for `c` and `c'`
decides whether `c` and `d` are equivalent.  In particular it finds out if a wrong circuit was compiled. -/
theorem compiled_verdict_partial (hc : Runnable c) (hd : Runnable d) (hc' : Runnable c') (h : Compiled d c') (hw : c.nqubits = d.nqubits)
    (hn : ∀ q, q < c.nqubits → c.isAncillary q = false) (hv : FullyChecked lib conv c c' cfg v) : Decided c d v ∨ Excused lib c c' cfg v := by
  obtain ⟨hb, _⟩ := compiled_ancillas h
  have ha : SameAncillas c d := fun q a b => by rw [hn q a, (h.data q b).1]
  have hl : AncillasLast c := fun q q' hq hq' e => by rw [hn q (by omega)] at e; cases e
  have w1 : min c.nqubits c'.nqubits ≤ d.nqubits := by omega
  have w2 : min c.nqubits d.nqubits ≤ c'.nqubits := by have := h.wide; omega
  have hac := sameAncillas_trans ha hb w1
  rcases fullyChecked_decides hv hc hc' hac hl with e | e
  · have q := compiled_equal hd hc' h
    have q' := equal_symm.1 q
    have x : Equal c c' ↔ Equal c d := ⟨fun t => equal_trans hac (sameAncillas_symm hb) w2 t q', fun t => equal_trans ha hb w1 t q⟩
    have y : EqualUpToPhase c c' ↔ EqualUpToPhase c d := ⟨fun t => equalUpToPhase_trans hac (sameAncillas_symm hb) w2 t ⟨1, by simp, q'⟩,
      fun t => equalUpToPhase_trans ha hb w1 t ⟨1, by simp, q⟩⟩
    exact Or.inl ⟨by rw [e.equivalent, x], by rw [e.phase, x, y], by rw [e.notEquivalent, y]⟩
  · exact Or.inr e

end QCEC.Props
