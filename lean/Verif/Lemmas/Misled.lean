import Verif.Lemmas.WideBridge
import Verif.Lemmas.CancelSafe
import Verif.Spec.VerifyEndToEnd
import Verif.Props.Preparation
import Mathlib.Tactic.ByContra
/-!
# The alternating checker is safe unless the prepared circuits mislead it
-/
namespace QCEC.Props
open QCEC QCEC.Mgr QCEC.Prep QCEC.Spec QCEC.Spec.Wide QCEC.Wide QCEC.Sem QCEC.DD

variable {m n : Nat}

theorem isSwap_on {e : Nat → Fin n} (o : WOp) : (o.on e).isSwap = isSwap o := by
  cases o with
  | simple s => cases s <;> rfl
  | compound l => rfl

theorem noSwap_on {e : Nat → Fin n} {o : WOp} (hs : isSwap o = false) (h : ¬ HidesSwap o) : NoSwap (o.on e) := by
  have h' : ∀ a b, WSOp.swap a b ∉ o.parts := fun a b hm => h ⟨hs, a, b, hm⟩
  cases o with
  | simple s =>
    cases s with
    | gate g => trivial
    | swap a b => exact absurd hs (by simp [isSwap])
    | barrier qs => trivial
  | compound l =>
    intro s hm a b e
    obtain ⟨t, ht, rfl⟩ := List.mem_map.1 hm
    cases t with
    | gate g => simp [WSOp.on] at e
    | swap a b => exact h' a b ht
    | barrier qs => simp [WSOp.on] at e

theorem wired_upTo {c : Circ WOp} (h : Wired c) {p r : List WOp} (e : c.ops = p ++ r) : Wired (upTo c p) :=
  ⟨h.keys, h.inj, h.range, by simp [upTo], by simp [upTo], by simp [upTo], fun o ho => h.proper o (by rw [e]; exact List.mem_append_left _ ho),
    fun o ho => h.inside o (by rw [e]; exact List.mem_append_left _ ho), by simp [upTo]⟩

theorem numbered_upTo {e : Nat → Fin n} {c : Circ WOp} {qc : QC n} (h : Numbered e c qc) (p : List WOp) :
    Numbered e (upTo c p) { qc with ops := p.map (WOp.on e), outputPermutation := [] } :=
  ⟨h.width, h.inj, rfl, h.initial, rfl, h.ancillary, h.garbage⟩

/-- What an operation does to the logical qubits depends on the labels of the qubits it uses only, also when the qubits are counted differently. -/
theorem logicalOp_on {e1 e2 : Nat → Fin n} {o : WOp} (h1 : NoSwap (o.on e1)) (h2 : NoSwap (o.on e2)) {σ τ : Equiv.Perm (Fin n)}
    (h : ∀ p, Uses o p → σ (e1 p) = τ (e2 p)) : logicalOp σ (o.on e1) = logicalOp τ (o.on e2) := by
  rw [logicalOp_getDD h1, logicalOp_getDD h2]
  have step : ∀ s : WSOp, (∀ a b, s ≠ .swap a b) → (∀ p, s.Names p → (∀ qs, s ≠ .barrier qs) → σ (e1 p) = τ (e2 p)) →
      ((s.on e1).getDD σ).1 = ((s.on e2).getDD τ).1 ∧ ((s.on e1).getDD σ).2 = σ ∧ ((s.on e2).getDD τ).2 = τ := by
    intro s hs hp
    cases s with
    | swap a b => exact absurd rfl (hs a b)
    | barrier qs => exact ⟨rfl, rfl, rfl⟩
    | gate g =>
      refine ⟨?_, rfl, rfl⟩
      show ((g.on e1).map σ).mat = ((g.on e2).map τ).mat
      have : (g.on e1).map σ = (g.on e2).map τ := by
        unfold WGate.on Gate.map
        have a1 : (fun i => σ ((e1 ∘ g.targets) i)) = fun i => τ ((e2 ∘ g.targets) i) :=
          funext fun i => hp _ (Or.inl ⟨i, rfl⟩) (by simp)
        have a2 : ((g.controls.map fun c => (e1 c.1, c.2)).map fun c => (σ c.1, c.2)) = (g.controls.map fun c => (e2 c.1, c.2)).map fun c => (τ c.1, c.2) := by
          rw [List.map_map, List.map_map]
          exact List.map_congr_left fun c hc => by
            simp only [Function.comp_apply]
            rw [hp c.1 (Or.inr ⟨c.2, hc⟩) (by simp)]
        simp only
        rw [a1, a2]
      rw [this]
  cases o with
  | simple s =>
    refine (step s ?_ fun p hp hb => h p ⟨s, by simp [WOp.parts], hp, hb⟩).1
    rintro a b rfl
    exact h1
  | compound l =>
    have key : ∀ (l : List WSOp) (A : Mat n), (∀ s ∈ l, ∀ a b, s ≠ .swap a b) →
        (∀ p, (∃ s ∈ l, s.Names p ∧ ∀ qs, s ≠ .barrier qs) → σ (e1 p) = τ (e2 p)) →
        (getDDList (l.map (WSOp.on e1)) A σ).1 = (getDDList (l.map (WSOp.on e2)) A τ).1 := by
      intro l
      induction l with
      | nil => intro A _ _; rfl
      | cons s r ih =>
        intro A hn ht
        obtain ⟨g1, g2, g3⟩ := step s (hn s List.mem_cons_self) fun p hp hb => ht p ⟨s, List.mem_cons_self, hp, hb⟩
        rw [List.map_cons, List.map_cons]
        unfold getDDList
        rw [g1, g2, g3]
        exact ih _ (fun t ht' => hn t (List.mem_cons_of_mem _ ht')) fun p ⟨t, ht', hp⟩ => ht p ⟨t, List.mem_cons_of_mem _ ht', hp⟩
    refine key l 1 ?_ fun p hp => h p hp
    rintro s hs a b rfl
    exact h1 _ (List.mem_map.2 ⟨_, hs, rfl⟩) _ _ rfl

/-- Cancelling an operation that is the same thing in both circuits is harmless. -/
theorem harmless_skip {e1 e2 : Nat → Fin n} {c1 c2 : Circ WOp} {qc1 qc2 : QC n} (w1 : Wired c1) (w2 : Wired c2) (h1 : Numbered e1 c1 qc1)
    (h2 : Numbered e2 c2 qc2) {P1 P2 T1 T2 : List WOp} {o : WOp} (k1 : c1.ops = P1 ++ o :: T1) (k2 : c2.ops = P2 ++ o :: T2) (sa : isSwap o = false)
    (hno : ¬ (HidesSwap o ∨ ∃ p, Uses o p ∧ labelAfter c1 P1 p ≠ labelAfter c2 P2 p)) :
    Moved ((P1.map (WOp.on e1)).foldl Moved qc1.initialLayout) (o.on e1) = (P1.map (WOp.on e1)).foldl Moved qc1.initialLayout ∧
    Moved ((P2.map (WOp.on e2)).foldl Moved qc2.initialLayout) (o.on e2) = (P2.map (WOp.on e2)).foldl Moved qc2.initialLayout ∧
    logicalOp ((P1.map (WOp.on e1)).foldl Moved qc1.initialLayout) (o.on e1) =
      logicalOp ((P2.map (WOp.on e2)).foldl Moved qc2.initialLayout) (o.on e2) := by
  push Not at hno
  have n1 : NoSwap (o.on e1) := noSwap_on sa hno.1
  have n2 : NoSwap (o.on e2) := noSwap_on sa hno.1
  refine ⟨noSwap_moved n1 _, noSwap_moved n2 _, logicalOp_on n1 n2 fun p hp => ?_⟩
  have lab : ∀ {e : Nat → Fin n} {c : Circ WOp} {qc : QC n}, Wired c → Numbered e c qc → ∀ (P T : List WOp), c.ops = P ++ o :: T →
      labelAfter c P p = (((P.map (WOp.on e)).foldl Moved qc.initialLayout) (e p)).val := by
    intro e c qc w hn P T hsplit
    have hinj : ∀ p p', (∃ q, (p, q) ∈ c.initialLayout) → (∃ q, (p', q) ∈ c.initialLayout) → e p = e p' → p = p' := by
      rintro p p' ⟨q, hq⟩ ⟨q', hq'⟩ he
      exact hn.inj p p' q q' hq hq' he
    have start : SameLabels (fun p => ∃ q, (p, q) ∈ c.initialLayout) e (startLabel c) qc.initialLayout := by
      rintro p ⟨q, hq⟩
      rw [w.startLabel_eq hq, hn.initial _ _ hq]
    refine labels_ops hinj P (fun o' ho' => w.inside o' (by rw [hsplit]; exact List.mem_append_left _ ho')) start p ?_
    obtain ⟨s, hs, hp', _⟩ := hp
    exact w.inside o (by rw [hsplit]; simp) p ⟨s, hs, hp'⟩
  exact Fin.ext (by rw [← lab w1 h1 P1 T1 k1, ← lab w2 h2 P2 T2 k2]; exact hno.2 p hp)

/-- The circuits as the checker sees them. -/
theorem safe_of_not_mistakable {e1 e2 : Nat → Fin n} {c1 c2 : Circ WOp} {qc1 qc2 : QC n} (w1 : Wired c1) (w2 : Wired c2) (h1 : Numbered e1 c1 qc1)
    (h2 : Numbered e2 c2 qc2) {opEq : Op n → Op n → Bool}
    (hop : ∀ a ∈ c1.ops, ∀ b ∈ c2.ops, opEq (a.on e1) (b.on e2) = true → a = b)
    (h : (∀ q < c1.nqubits, ¬ (c1.isAncillary q = true ∧ c2.isAncillary q = true)) → ¬ Mistakable c1 c2) : SkipSafe opEq qc1 qc2 := by
  intro hanc
  replace h := h fun q hqn hq => by
    rw [h1.width] at hqn
    exact hanc ⟨q, hqn⟩ ⟨(h1.ancillary q hqn).trans hq.1, (h2.ancillary q hqn).trans hq.2⟩
  intro p1 a r1 p2 b r2 g1 g2 hag he sa sb
  rw [h1.ops] at g1
  rw [h2.ops] at g2
  obtain ⟨P1, R1, k1, rfl, q1⟩ := List.map_eq_append_iff.1 g1
  obtain ⟨P2, R2, k2, rfl, q2⟩ := List.map_eq_append_iff.1 g2
  obtain ⟨o, T1, rfl, rfl, rfl⟩ := List.map_eq_cons_iff.1 q1
  obtain ⟨o', T2, rfl, rfl, rfl⟩ := List.map_eq_cons_iff.1 q2
  have := hop o (by rw [k1]; simp) o' (by rw [k2]; simp) he
  subst this
  rw [isSwap_on] at sa
  have hEq : ∃ k : ℂ, ‖k‖ = 1 ∧ EqualOn (fun _ => False) k (upTo c1 P1) (upTo c2 P2) := by
    obtain ⟨k, hk, hsame⟩ := hag
    refine ⟨k, hk, (sameOn_numbered (wired_upTo w1 k1) (wired_upTo w2 k2) (numbered_upTo h1 P1) (numbered_upTo h2 P2) [] (by simp) k).1 ?_⟩
    have f : ∀ (qc : QC n) (l : List (Op n)), finalLabels { qc with ops := l, outputPermutation := [] } = l.foldl Moved qc.initialLayout := fun _ _ => rfl
    rw [f, f]
    exact hsame
  have hno : ¬ (HidesSwap o ∨ ∃ p, Uses o p ∧ labelAfter c1 P1 p ≠ labelAfter c2 P2 p) :=
    fun hx => h ⟨P1, P2, o, T1, T2, k1, k2, sa, hEq, hx⟩
  exact harmless_skip w1 w2 h1 h2 k1 k2 sa hno

theorem savoids_on {e : Nat → Fin n} {p : Fin n} {s : WSOp} (h : ∀ x, s.Names x → e x ≠ p) : SAvoids p (s.on e) := by
  cases s with
  | gate g =>
    intro i
    exact h _ (Or.inl ⟨i, rfl⟩)
  | swap a b => exact ⟨h a (Or.inl rfl), h b (Or.inr rfl)⟩
  | barrier _ => trivial

theorem avoids_on {e : Nat → Fin n} {p : Fin n} {o : WOp} (h : ∀ x, o.Names x → e x ≠ p) : Avoids p (o.on e) := by
  cases o with
  | simple s => exact savoids_on fun x hx => h x ⟨s, by simp [WOp.parts], hx⟩
  | compound l =>
    intro s hs
    obtain ⟨s', hs', rfl⟩ := List.mem_map.1 hs
    exact savoids_on fun x hx => h x ⟨s', hs', hx⟩

/-- An operation that avoids a qubit does so under another numbering. -/
theorem avoids_same {e1 e2 : Nat → Fin n} {p1 p2 : Fin n} {o : WOp} (h : ∀ x, o.Names x → e1 x = p1 → e2 x = p2) (ha : Avoids p2 (o.on e2)) :
    Avoids p1 (o.on e1) := by
  have step : ∀ s : WSOp, (∀ x, s.Names x → e1 x = p1 → e2 x = p2) → SAvoids p2 (s.on e2) → SAvoids p1 (s.on e1) := by
    intro s hs hv
    cases s with
    | gate g => exact fun i hi => hv i (hs _ (Or.inl ⟨i, rfl⟩) hi)
    | swap a b => exact ⟨fun hi => hv.1 (hs a (Or.inl rfl) hi), fun hi => hv.2 (hs b (Or.inr rfl) hi)⟩
    | barrier _ => trivial
  cases o with
  | simple s => exact step s (fun x hx => h x ⟨s, by simp [WOp.parts], hx⟩) ha
  | compound l =>
    intro s hs
    obtain ⟨s', hs', rfl⟩ := List.mem_map.1 hs
    exact step s' (fun x hx => h x ⟨s', hs', hx⟩) (ha _ (List.mem_map.2 ⟨s', hs', rfl⟩))

/-- The numbered circuit leaves alone what the circuit leaves alone … -/
theorem leftAlone_numbered {e : Nat → Fin n} {c : Circ WOp} {qc : QC n} (w : Wired c) (hn : Numbered e c qc) {q : Fin n} (h : LeavesAlone c q.val) :
    LeftAlone qc q := by
  refine ⟨qc.initialLayout.symm q, Equiv.apply_symm_apply _ _, fun o ho => ?_⟩
  rw [hn.ops] at ho
  obtain ⟨o', ho', rfl⟩ := List.mem_map.1 ho
  refine avoids_on fun x hx he => ?_
  obtain ⟨q', hq'⟩ := w.inside o' ho' x hx
  have := hn.initial x q' hq'
  rw [he, Equiv.apply_symm_apply] at this
  exact h x (this ▸ hq') o' ho' hx

/-- … and keeps what it keeps. -/
theorem idle_numbered {e : Nat → Fin n} {c : Circ WOp} {qc : QC n} {ω : Equiv.Perm (Fin n)} (w : Wired c) (hn : Numbered e c qc) (hw : WellFormed qc ω)
    {q : Fin n} (h : Keeps c q.val) : Idle qc ω q := by
  obtain ⟨p, hp, ho⟩ := leftAlone_numbered w hn h.1
  refine ⟨p, hp, ?_, ho⟩
  rw [hw.labels]
  obtain ⟨hlab, hrest⟩ := labels_numbered w hn
  by_cases hx : ∃ x, (∃ q', (x, q') ∈ c.initialLayout) ∧ e x = p
  · obtain ⟨x, ⟨q', hq'⟩, rfl⟩ := hx
    have e1 := hn.initial x q' hq'
    rw [hp] at e1
    have e2 := hlab x ⟨q', hq'⟩
    rw [h.2 x (e1 ▸ hq')] at e2
    exact Fin.ext e2.symm
  · rw [hrest p fun x hq he => hx ⟨x, hq, he⟩, hp]

/-- Common ancillary qubits do not mislead the alternating checker if they are not read out elsewhere. -/
theorem settled_of_not_misread {e1 e2 : Nat → Fin n} {c1 c2 : Circ WOp} {qc1 qc2 : QC n} {ω1 ω2 : Equiv.Perm (Fin n)} (w1 : Wired c1) (w2 : Wired c2)
    (h1 : Numbered e1 c1 qc1) (h2 : Numbered e2 c2 qc2) (f1 : WellFormed qc1 ω1) (f2 : WellFormed qc2 ω2) (h : ¬ Misread c1 c2) : Settled qc1 ω1 qc2 ω2 := by
  intro _
  have sh : ∀ q : Fin n, SharedAncilla qc1 qc2 q → q.val < c1.nqubits ∧ c1.isAncillary q.val = true ∧ c2.isAncillary q.val = true := fun q hq =>
    ⟨by rw [h1.width]; exact q.isLt, (h1.ancillary _ q.isLt).symm.trans hq.1, (h2.ancillary _ q.isLt).symm.trans hq.2⟩
  by_contra hno
  push Not at hno
  obtain ⟨⟨q, hq, k1, k2⟩, ⟨q', hq', k3⟩, ⟨q'', hq'', k4⟩⟩ := hno
  refine h ⟨⟨q, (sh q hq).1, (sh q hq).2.1, (sh q hq).2.2, fun hk => k1 (idle_numbered w1 h1 f1 hk), fun hk => k2 (idle_numbered w2 h2 f2 hk)⟩,
    ⟨q', (sh q' hq').1, (sh q' hq').2.1, (sh q' hq').2.2, fun hk => k3 (leftAlone_numbered w1 h1 hk)⟩,
    ⟨q'', (sh q'' hq'').1, (sh q'' hq'').2.1, (sh q'' hq'').2.2, fun hk => k4 (leftAlone_numbered w2 h2 hk)⟩⟩

/-- Two copies of a circuit: no common ancillary qubit misleads. -/
theorem settled_self {e1 e2 : Nat → Fin n} {c : Circ WOp} {qc1 qc2 : QC n} {ω1 ω2 : Equiv.Perm (Fin n)} (w : Wired c) (h1 : Numbered e1 c qc1)
    (h2 : Numbered e2 c qc2) : Settled qc1 ω1 qc2 ω2 := by
  intro ha
  refine Or.inr (Or.inl fun q hq => (ha q hq).elim id fun hl => ?_)
  obtain ⟨p, hp, ho⟩ := hl
  refine ⟨qc1.initialLayout.symm q, Equiv.apply_symm_apply _ _, fun o hoo => ?_⟩
  rw [h1.ops] at hoo
  obtain ⟨o', ho', rfl⟩ := List.mem_map.1 hoo
  have h' := ho (o'.on e2) (by rw [h2.ops]; exact List.mem_map.2 ⟨o', ho', rfl⟩)
  have key : ∀ x, o'.Names x → e1 x = qc1.initialLayout.symm q → e2 x = p := by
    intro x hx he
    obtain ⟨q', hq'⟩ := w.inside o' ho' x hx
    have a := h1.initial x q' hq'
    have b := h2.initial x q' hq'
    rw [he, Equiv.apply_symm_apply] at a
    exact qc2.initialLayout.injective (Fin.ext (by rw [b, hp, a]))
  exact avoids_same key h'

/-- The alternating checker is safe unless it is misled. -/
theorem safe_of_not_misled {c1 c2 : Circ WOp} {cfg : Configuration} {setters : List Param.Setter} {lib : Library}
    (hP : ∀ p ∈ planned cfg.optimizations true, Faithful lib.passes p) {M : Made WOp} (h : Prep.construct lib.acts lib.passes cfg c1 c2 = .made M)
    (S : Mixed m n) {e1 e2 : Nat → Fin n} (w1 : Wired M.qc1) (w2 : Wired M.qc2) (hn1 : Numbered e1 M.qc1 S.qc1) (hn2 : Numbered e2 M.qc2 S.qc2)
    (hsch : Follows S M.cfg) (hop : ∀ a ∈ M.qc1.ops, ∀ b ∈ M.qc2.ops, S.opEq (a.on e1) (b.on e2) = true → a = b)
    (hno : ¬ Misled lib c1 c2 cfg setters) (hen : Enabled (afterSetters M.cfg setters) .alternating) : S.Safe := by
  refine ⟨⟨fun hc => ?_, fun hc => ?_⟩, settled_of_not_misread w1 w2 hn1 hn2 S.wf1 S.wf2 fun hr => hno ⟨M, hP, h, hen, Or.inr (Or.inr hr)⟩⟩
  · exact safe_of_not_mistakable w1 w2 hn1 hn2 hop fun ha hm => hno ⟨M, hP, h, hen, Or.inl ⟨hsch.1 hc, ha, hm⟩⟩
  · have hl : M.cfg.application.alternatingScheme = .lookahead := by
      by_contra hl
      exact hc (hsch.2 hl)
    have hh : ∀ o, (o ∈ M.qc1.ops ∨ o ∈ M.qc2.ops) → ¬ HidesSwap o := fun o ho hs =>
      hno ⟨M, hP, h, hen, Or.inr (Or.inl ⟨hl, o, ho, hs⟩)⟩
    constructor
    · intro o ho hs
      rw [hn1.ops] at ho
      obtain ⟨o, ho', rfl⟩ := List.mem_map.1 ho
      rw [isSwap_on] at hs
      exact noSwap_on hs (hh o (Or.inl ho'))
    · intro o ho hs
      rw [hn2.ops] at ho
      obtain ⟨o, ho', rfl⟩ := List.mem_map.1 ho
      rw [isSwap_on] at hs
      exact noSwap_on hs (hh o (Or.inr ho'))

/-- An ancillary qubit that both circuits share and one of them uses survives the preparation. -/
theorem shared_ancilla_prepared {acts : WOp → Nat → Bool} {cfg : Configuration} {d1 d2 : Circ WOp} (h1 : CircOk d1) (h2 : CircOk d2) {M : Made WOp}
    (h : prepare acts cfg (d1, d2) = .made M) {q : Nat} (hu : ¬ Unused acts d1 q ∨ ¬ Unused acts d2 q) (hf : FixedInBoth d1 d2 q) :
    ∃ q' < M.qc1.nqubits, M.qc1.isAncillary q' = true ∧ M.qc2.isAncillary q' = true := by
  obtain ⟨s1, s2, g1, g2, _⟩ := prepare_made h
  obtain ⟨R, t1, t2, k0, hR, k1, k2, ok1, ok2⟩ := strip_idle_qubits acts h1 h2
  rw [g1] at k0
  cases k0
  obtain ⟨t1, t2, l0, l1, l2, l3, l4⟩ := setup_ancillaries ok1 ok2
  rw [g2] at l0
  obtain ⟨e1, e2⟩ := Prod.mk.inj (Option.some.inj l0)
  subst e1
  subst e2
  have hqR : q ∉ R := fun hq => by
    obtain ⟨_, a, b⟩ := (hR q).1 hq
    tauto
  have hw : q < d1.nqubits ∨ q < d2.nqubits := by
    rcases hu with hu | hu
    · left
      unfold Unused at hu
      push Not at hu
      obtain ⟨p, hp, _⟩ := hu
      exact (h1.onto q).1 ⟨p, hp⟩
    · right
      unfold Unused at hu
      push Not at hu
      obtain ⟨p, hp, _⟩ := hu
      exact (h2.onto q).1 ⟨p, hp⟩
  have i1 : newIndex R q < s1.nqubits ↔ q < d1.nqubits := by rw [k1.width]; exact newIndex_lt_iff hqR _
  have i2 : newIndex R q < s2.nqubits ↔ q < d2.nqubits := by rw [k2.width]; exact newIndex_lt_iff hqR _
  have f1 : q < d1.nqubits → s1.isAncillary (newIndex R q) = d1.isAncillary q := fun hq => (k1.flags q hq hqR).1
  have f2 : q < d2.nqubits → s2.isAncillary (newIndex R q) = d2.isAncillary q := fun hq => (k2.flags q hq hqR).1
  unfold FixedInBoth at hf
  refine ⟨newIndex R q, by rw [l1]; omega, ?_⟩
  by_cases hlt : s1.nqubits > s2.nqubits
  · obtain ⟨hs, hp⟩ := l3 hlt
    have hq1 : newIndex R q < s1.nqubits := by omega
    rw [hs.ancillary _ hq1, Bool.or_eq_true_iff, decide_eq_true_iff]
    by_cases hq2 : newIndex R q < s2.nqubits
    · obtain ⟨a, b⟩ := (hf.resolve_left (by omega)).resolve_left (by omega)
      rw [(hp.old _ hq2).1, f2 (i2.1 hq2), f1 (i1.1 hq1)]
      exact ⟨Or.inr a, b⟩
    · exact ⟨Or.inl (by omega), (hp.new _ (by omega) hq1).1⟩
  · obtain ⟨hp, hs⟩ := l4 (by omega)
    have hq2 : newIndex R q < s2.nqubits := by omega
    rw [hs.ancillary _ hq2, Bool.or_eq_true_iff, decide_eq_true_iff]
    by_cases hq1 : newIndex R q < s1.nqubits
    · obtain ⟨a, b⟩ := (hf.resolve_left (by omega)).resolve_left (by omega)
      rw [(hp.old _ hq1).1, f1 (i1.1 hq1), f2 (i2.1 hq2)]
      exact ⟨a, Or.inr b⟩
    · exact ⟨(hp.new _ (by omega) hq2).1, Or.inl (by omega)⟩

/-- The passes keep the number of qubits and the ancillary ones; the manager is prepared with what they deliver. -/
theorem optimised_prepared {lib : Library} {c1 c2 d1 d2 : Circ WOp} {cfg : Configuration} (h1 : Runnable c1) (h2 : Runnable c2)
    (hP : ∀ p ∈ planned cfg.optimizations true, Faithful lib.passes p) (hd : Optimised lib cfg c1 c2 d1 d2) :
    Runnable d1 ∧ Runnable d2 ∧ (∀ q, FixedInBoth d1 d2 q ↔ FixedInBoth c1 c2 q) ∧
      Prep.construct lib.acts lib.passes cfg c1 c2 = prepare lib.acts cfg (d1, d2) := by
  have sub : ∀ d, ∀ p ∈ planned cfg.optimizations d, Faithful lib.passes p := by
    intro d p hp
    refine hP p ?_
    cases d
    · simp only [planned, Bool.false_eq_true, if_false, List.nil_append] at hp
      simp only [planned, if_true]
      exact List.mem_append_right _ hp
    · exact hp
  unfold Optimised at hd
  unfold Prep.construct
  split at hd
  · rename_i hv
    rw [if_pos (by rw [hv.1, hv.2]; rfl), hd]
    rw [passes_exact] at hd
    split at hd
    · cases hd
      exact ⟨h1, h2, fun _ => Iff.rfl, rfl⟩
    · split at hd
      · cases hd
      · obtain ⟨a1, a2, a3, _⟩ := faithful_list _ (sub (lib.passes.dynamic c1)) c1 h1
        obtain ⟨b1, b2, b3, _⟩ := faithful_list _ (sub (lib.passes.dynamic c2)) c2 h2
        cases hd
        exact ⟨a1, b1, fun q => by unfold FixedInBoth; rw [a2, b2, a3, b3], rfl⟩
  · rename_i hv
    obtain ⟨rfl, rfl⟩ := hd
    rw [if_neg (fun e => hv (by simpa using e))]
    exact ⟨h1, h2, fun _ => Iff.rfl, rfl⟩

/-- Nothing is skipped wrongly in circuits that share an ancillary qubit: a call for such circuits is not misled, unless it uses lookahead
or common ancillary qubits are read out elsewhere. -/
theorem shared_ancilla_not_misled {lib : Library} {c1 c2 : Circ WOp} {cfg : Configuration} {setters : List Param.Setter} (h1 : Runnable c1) (h2 : Runnable c2)
    (hs : SharedAncillaUsed lib c1 c2 cfg) (hl : cfg.application.alternatingScheme ≠ .lookahead) (hr : ¬ AncillaMisread lib c1 c2 cfg) :
    ¬ Misled lib c1 c2 cfg setters := by
  rintro ⟨M, hP, hm, _, h⟩
  obtain ⟨d1, d2, q, hd, hf, hu⟩ := hs
  have happ : M.cfg.application = cfg.application := by
    obtain ⟨k, _, e⟩ := construct_fallback hm
    rw [e]
  rcases h with ⟨_, hno, _⟩ | ⟨h, _⟩ | h
  · obtain ⟨r1, r2, hfx, e⟩ := optimised_prepared h1 h2 hP hd
    obtain ⟨q', hq', ha⟩ := shared_ancilla_prepared r1.ok r2.ok (e ▸ hm) hu ((hfx q).2 hf)
    exact hno q' hq' ha
  · exact hl (by rw [← happ]; exact h)
  · exact hr ⟨M, hP, hm, h⟩

end QCEC.Props
