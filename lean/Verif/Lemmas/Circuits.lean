import Verif.Spec.Circuits
import Verif.Lemmas.LinearCombination
import Verif.Props.LinearCombination
import Mathlib.Data.List.GetD
import Mathlib.Tactic.NormNum
import Mathlib.Tactic.LinearCombination

set_option linter.unusedSectionVars false

namespace Crypto3Zk

variable {F : Type*} [Field F] [DecidableEq F]

open LinComb

theorem envOf_append_left (w v : List F) {i : Nat} (h : i ≤ w.length) :
    envOf (w ++ v) i = envOf w i := by
  cases i with
  | zero => rfl
  | succ j => simp only [envOf, List.getD_eq_getElem?_getD]; rw [List.getElem?_append_left h]

theorem envOf_append_next (w : List F) (x : F) (v : List F) :
    envOf (w ++ x :: v) (w.length + 1) = x := by
  simp [envOf]

theorem formalValue_append_left {lc : LinComb F} {w : List F} (v : List F)
    (h : IndicesLE lc w.length) : formalValue lc (envOf (w ++ v)) = formalValue lc (envOf w) := by
  unfold formalValue
  congr 1
  apply List.map_congr_left
  intro t ht
  rw [envOf_append_left _ _ (h t ht)]

theorem isValid_indices {lc : LinComb F} {n : Nat} (h : isValid lc n = some true) :
    ∀ t ∈ lc, t.index < n := by
  have hne : lc ≠ [] := by rintro rfl; simp [C04_empty_is_undefined] at h
  rw [C04_isValid_partial lc n hne] at h
  simp only [Option.some.injEq, decide_eq_true_eq] at h
  exact h.2

/-! ## BACS -/

namespace Bacs

/-- Gate outputs are consecutive and gates only read earlier wires. -/
def Topo : Nat → List (BacsGate F) → Prop
  | _, [] => True
  | n, g :: gs => g.output = n + 1 ∧ IndicesLE g.lhs n ∧ IndicesLE g.rhs n ∧ Topo (n + 1) gs

theorem topo_of_validFrom (N : Nat) (gs : List (BacsGate F)) (i : Nat)
    (h : validFrom N i gs = some true) : Topo (N + i) gs := by
  induction gs generalizing i with
  | nil => trivial
  | cons g gs ih =>
    unfold validFrom at h
    split at h
    · simp at h
    · rename_i ho
      simp only [ne_eq, not_not] at ho
      split at h <;> try simp at h
      rename_i hl
      split at h <;> try simp at h
      rename_i hr
      refine ⟨by omega, ?_, ?_, ?_⟩
      · intro t ht; have := isValid_indices hl t ht; omega
      · intro t ht; have := isValid_indices hr t ht; omega
      · exact ih (i + 1) h

theorem topo_output_le {n : Nat} {gs : List (BacsGate F)} (h : Topo n gs) :
    ∀ g ∈ gs, n < g.output ∧ g.output ≤ n + gs.length ∧
      IndicesLE g.lhs (n + gs.length) ∧ IndicesLE g.rhs (n + gs.length) := by
  induction gs generalizing n with
  | nil => simp
  | cons g gs ih =>
    obtain ⟨h1, h2, h3, h4⟩ := h
    intro g' hg'
    rcases List.mem_cons.1 hg' with rfl | hg'
    · refine ⟨by omega, by simp; omega, ?_, ?_⟩
      · intro t ht; have := h2 t ht; simp; omega
      · intro t ht; have := h3 t ht; simp; omega
    · obtain ⟨a, b, c, d⟩ := ih h4 g' hg'
      simp only [List.length_cons]
      refine ⟨by omega, by omega, ?_, ?_⟩
      · intro t ht; have := c t ht; omega
      · intro t ht; have := d t ht; omega

theorem gate_evaluate {g : BacsGate F} {w : List F} (hl : IndicesLE g.lhs w.length)
    (hr : IndicesLE g.rhs w.length) :
    g.evaluate w = some (formalValue g.lhs (envOf w) * formalValue g.rhs (envOf w)) := by
  unfold BacsGate.evaluate
  rw [evaluate_eq_some hl, evaluate_eq_some hr]

theorem run_spec (gs : List (BacsGate F)) (w : List F) (h : Topo w.length gs) :
    ∃ r, runGates w gs = some (w ++ r) ∧ r.length = gs.length ∧
      ∀ v : List F, v.length = gs.length →
        ((∀ g ∈ gs, g.Holds (envOf (w ++ v))) ↔ v = r) := by
  induction gs generalizing w with
  | nil =>
    refine ⟨[], by simp [runGates], rfl, ?_⟩
    intro v hv
    simp at hv
    simp [hv]
  | cons g gs ih =>
    obtain ⟨ho, hl, hr, ht⟩ := h
    set val := formalValue g.lhs (envOf w) * formalValue g.rhs (envOf w) with hval
    obtain ⟨r, h1, h2, h3⟩ := ih (w ++ [val]) (by simpa using ht)
    refine ⟨val :: r, ?_, by simp [h2], ?_⟩
    · unfold runGates at h1 ⊢
      rw [List.foldlM_cons, gate_evaluate hl hr]
      simpa using h1
    · intro v hv
      cases v with
      | nil => simp at hv
      | cons x v =>
        have hg : g.Holds (envOf (w ++ x :: v)) ↔ x = val := by
          unfold BacsGate.Holds
          rw [ho, envOf_append_next, formalValue_append_left _ hl, formalValue_append_left _ hr]
        simp only [List.mem_cons, forall_eq_or_imp, hg, List.cons.injEq]
        constructor
        · rintro ⟨rfl, hrest⟩
          refine ⟨rfl, (h3 v (by simpa using hv)).1 ?_⟩
          intro g' hg'
          have := hrest g' hg'
          simpa using this
        · rintro ⟨rfl, rfl⟩
          refine ⟨rfl, ?_⟩
          intro g' hg'
          have := (h3 v (by simpa using hv)).2 rfl g' hg'
          simpa using this

theorem mapM_outputs (gs : List (BacsGate F)) (w : List F)
    (h : ∀ g ∈ gs, 0 < g.output ∧ g.output ≤ w.length) :
    (gs.mapM fun g => if g.output = 0 then none else w[g.output - 1]?) =
      some (gs.map fun g => envOf w g.output) := by
  induction gs with
  | nil => rfl
  | cons g gs ih =>
    obtain ⟨h1, h2⟩ := h g (by simp)
    rw [List.mapM_cons, ih (fun g' hg' => h g' (by simp [hg']))]
    have : (if g.output = 0 then none else w[g.output - 1]?) = some (envOf w g.output) := by
      rw [if_neg (by omega)]
      obtain ⟨k, hk⟩ : ∃ k, g.output = k + 1 := ⟨g.output - 1, by omega⟩
      rw [hk] at h2 ⊢
      simp only [Nat.add_sub_cancel, envOf]
      rw [List.getElem?_eq_getElem (by omega), List.getD_eq_getElem _ _ (by omega)]
    rw [this]; rfl

theorem toR1CS_wellRanged (c : Bacs F) (h : Topo c.numInputs c.gates) : c.toR1CS.WellRanged := by
  intro k hk
  have hn : c.toR1CS.numVariables = c.numInputs + c.gates.length := by
    simp [R1CS.numVariables, toR1CS, numInputs]; omega
  rw [hn]
  simp only [toR1CS, List.mem_append, List.mem_map, List.mem_filter] at hk
  rcases hk with ⟨g, hg, rfl⟩ | ⟨g, ⟨hg, _⟩, rfl⟩
  · obtain ⟨a, b, c1, d⟩ := topo_output_le h g hg
    exact ⟨c1, d, by intro t ht; simp [ofVar] at ht; subst ht; exact b⟩
  · obtain ⟨a, b, c1, d⟩ := topo_output_le h g hg
    refine ⟨?_, ?_, ?_⟩ <;> intro t ht <;> simp [ofVar, ofConst, termScale] at ht <;> subst ht
    · simp
    · exact b
    · simp

theorem toR1CS_sat (c : Bacs F) (p v : List F) :
    c.toR1CS.Sat p v ↔ (∀ g ∈ c.gates, g.Holds (envOf (p ++ v))) ∧
      ∀ g ∈ c.gates, g.isCircuitOutput = true → envOf (p ++ v) g.output = 0 := by
  unfold R1CS.Sat
  simp only [toR1CS, List.mem_append, List.mem_map, List.mem_filter]
  constructor
  · intro h
    constructor
    · intro g hg
      have := h _ (Or.inl ⟨g, hg, rfl⟩)
      simp only [formalValue, ofVar, List.map_cons, List.map_nil, List.sum_cons, List.sum_nil,
        add_zero, one_mul] at this
      exact this.symm
    · intro g hg ho
      have := h _ (Or.inr ⟨g, ⟨hg, ho⟩, rfl⟩)
      simpa [formalValue, ofVar, ofConst, termScale, envOf] using this
  · rintro ⟨h1, h2⟩ k (⟨g, hg, rfl⟩ | ⟨g, ⟨hg, ho⟩, rfl⟩)
    · have := h1 g hg
      simp only [formalValue, ofVar, List.map_cons, List.map_nil, List.sum_cons, List.sum_nil,
        add_zero, one_mul]
      exact this.symm
    · have := h2 g hg ho
      simp [formalValue, ofVar, ofConst, termScale, this]

theorem satisfied_spec (c : Bacs F) (h : Topo c.numInputs c.gates) (p a : List F)
    (hlen : p.length + a.length = c.numInputs) :
    ∃ r, c.allWires p a = some (p ++ a ++ r) ∧ r.length = c.gates.length ∧
      (∀ v : List F, v.length = c.gates.length →
        ((∀ g ∈ c.gates, g.Holds (envOf (p ++ a ++ v))) ↔ v = r)) ∧
      c.allOutputs p a =
        some ((c.gates.filter (·.isCircuitOutput)).map fun g => envOf (p ++ a ++ r) g.output) := by
  obtain ⟨r, h1, h2, h3⟩ := run_spec c.gates (p ++ a) (by simpa [hlen] using h)
  refine ⟨r, h1, h2, h3, ?_⟩
  unfold allOutputs allWires
  rw [h1]
  simp only [Option.bind_some]
  rw [mapM_outputs]
  intro g hg
  obtain ⟨a1, b1, _, _⟩ := topo_output_le h g (List.mem_filter.1 hg).1
  simp only [List.length_append, h2]
  omega

/-! ### depths -/

theorem maxDepth_spec (ds : List Nat) (lc : LinComb F) (s : Nat)
    (h : ∀ t ∈ lc, t.index < ds.length) :
    ∃ m, maxDepth ds lc s = some m ∧ ∀ k, m ≤ k ↔ s ≤ k ∧ ∀ t ∈ lc, ds.getD t.index 0 ≤ k := by
  induction lc generalizing s with
  | nil => exact ⟨s, rfl, by simp⟩
  | cons t ts ih =>
    have ht : t.index < ds.length := h t (by simp)
    obtain ⟨m, h1, h2⟩ := ih (max s (ds[t.index])) (fun t' ht' => h t' (by simp [ht']))
    refine ⟨m, ?_, ?_⟩
    · unfold maxDepth at h1 ⊢
      rw [List.foldlM_cons, List.getElem?_eq_getElem ht]
      simpa using h1
    · intro k
      rw [h2 k]
      simp only [List.mem_cons, forall_eq_or_imp, List.getD_eq_getElem _ _ ht, max_le_iff, and_assoc]

theorem depth_spec (gs : List (BacsGate F)) (ds : List Nat) (n : Nat) (hn : ds.length = n + 1)
    (h : Topo n gs) :
    ∃ ds', gs.foldlM depthStep ds = some (ds ++ ds') ∧ ds'.length = gs.length ∧
      ∀ g ∈ gs, ∃ m, (ds ++ ds').getD g.output 0 = m + 1 ∧ ∀ k, m ≤ k ↔
        (∀ t ∈ g.lhs, (ds ++ ds').getD t.index 0 ≤ k) ∧
        (∀ t ∈ g.rhs, (ds ++ ds').getD t.index 0 ≤ k) := by
  induction gs generalizing ds n with
  | nil => exact ⟨[], by simp⟩
  | cons g gs ih =>
    obtain ⟨ho, hl, hr, ht⟩ := h
    have hl' : ∀ t ∈ g.lhs, t.index < ds.length := fun t ht => by have := hl t ht; omega
    have hr' : ∀ t ∈ g.rhs, t.index < ds.length := fun t ht => by have := hr t ht; omega
    obtain ⟨m, hm1, hm2⟩ := maxDepth_spec ds g.lhs 0 hl'
    obtain ⟨m', hm3, hm4⟩ := maxDepth_spec ds g.rhs m hr'
    obtain ⟨ds', h1, h2, h3⟩ := ih (ds ++ [m' + 1]) (n + 1) (by simp [hn]) ht
    refine ⟨(m' + 1) :: ds', ?_, by simp [h2], ?_⟩
    · rw [List.foldlM_cons]
      have : depthStep ds g = some (ds ++ [m' + 1]) := by simp [depthStep, hm1, hm3]
      rw [this]
      simpa using h1
    · intro g' hg'
      rcases List.mem_cons.1 hg' with rfl | hg'
      · refine ⟨m', ?_, ?_⟩
        · rw [ho, ← hn]; simp
        · intro k
          have e : ∀ i, i < ds.length → (ds ++ (m' + 1) :: ds').getD i 0 = ds.getD i 0 := by
            intro i hi
            simp only [List.getD_eq_getElem?_getD, List.getElem?_append_left hi]
          rw [hm4, hm2]
          constructor
          · rintro ⟨⟨_, a⟩, b⟩
            exact ⟨fun t ht => by rw [e _ (hl' t ht)]; exact a t ht,
              fun t ht => by rw [e _ (hr' t ht)]; exact b t ht⟩
          · rintro ⟨a, b⟩
            exact ⟨⟨Nat.zero_le _, fun t ht => by rw [← e _ (hl' t ht)]; exact a t ht⟩,
              fun t ht => by rw [← e _ (hr' t ht)]; exact b t ht⟩
      · simpa using h3 g' hg'

end Bacs

/-! ## TBCS -/

namespace Tbcs

theorem bit_eq_fn : ∀ (t : TbcsGateType) (x y : Bool), t.bit x y = t.fn x y := by
  intro t x y; cases t <;> cases x <;> cases y <;> rfl

/-- Gate outputs are consecutive and gates only read earlier wires. -/
def Topo : Nat → List TbcsGate → Prop
  | _, [] => True
  | n, g :: gs => g.output = n + 1 ∧ g.leftWire ≤ n ∧ g.rightWire ≤ n ∧ Topo (n + 1) gs

theorem topo_of_validFrom (N : Nat) (gs : List TbcsGate) (i : Nat)
    (h : validFrom N i gs = true) : Topo (N + i) gs := by
  induction gs generalizing i with
  | nil => trivial
  | cons g gs ih =>
    unfold validFrom at h
    split at h
    · simp at h
    · rename_i ho
      split at h
      · simp at h
      · rename_i hw
        exact ⟨by omega, by omega, by omega, ih (i + 1) h⟩

theorem topo_output_le {n : Nat} {gs : List TbcsGate} (h : Topo n gs) :
    ∀ g ∈ gs, n < g.output ∧ g.output ≤ n + gs.length ∧
      g.leftWire < g.output ∧ g.rightWire < g.output := by
  induction gs generalizing n with
  | nil => simp
  | cons g gs ih =>
    obtain ⟨h1, h2, h3, h4⟩ := h
    intro g' hg'
    rcases List.mem_cons.1 hg' with rfl | hg'
    · simp only [List.length_cons]; omega
    · have := ih h4 g' hg'
      simp only [List.length_cons]; omega

theorem topo_append {n : Nat} {gs hs : List TbcsGate} (h : Topo n (gs ++ hs)) :
    Topo n gs ∧ Topo (n + gs.length) hs := by
  induction gs generalizing n with
  | nil => exact ⟨trivial, h⟩
  | cons g gs ih =>
    obtain ⟨h1, h2, h3, h4⟩ := h
    obtain ⟨a, b⟩ := ih h4
    refine ⟨⟨h1, h2, h3, a⟩, ?_⟩
    simp only [List.length_cons]
    rwa [show n + (gs.length + 1) = n + 1 + gs.length by omega]

theorem bitOf_append_left (w v : List Bool) {i : Nat} (h : i ≤ w.length) :
    bitOf (w ++ v) i = bitOf w i := by
  cases i with
  | zero => rfl
  | succ j => simp only [bitOf, List.getD_eq_getElem?_getD]; rw [List.getElem?_append_left h]

theorem bitOf_append_next (w : List Bool) (x : Bool) (v : List Bool) :
    bitOf (w ++ x :: v) (w.length + 1) = x := by
  simp [bitOf]

theorem readWire_eq {w : List Bool} {i : Nat} (h : i ≤ w.length) :
    TbcsGate.readWire w i = some (bitOf w i) := by
  unfold TbcsGate.readWire
  cases i with
  | zero => rfl
  | succ j =>
    rw [if_neg (by omega)]
    simp only [Nat.add_sub_cancel, bitOf]
    rw [List.getElem?_eq_getElem h, List.getD_eq_getElem _ _ h]

theorem gate_evaluate {g : TbcsGate} {w : List Bool} (hl : g.leftWire ≤ w.length)
    (hr : g.rightWire ≤ w.length) :
    g.evaluate w = some (g.type.fn (bitOf w g.leftWire) (bitOf w g.rightWire)) := by
  unfold TbcsGate.evaluate
  rw [readWire_eq hl, readWire_eq hr, ← bit_eq_fn]

theorem run_spec (gs : List TbcsGate) (w : List Bool) (h : Topo w.length gs) :
    ∃ r, runGates w gs = some (w ++ r) ∧ r.length = gs.length ∧
      ∀ v : List Bool, v.length = gs.length →
        ((∀ g ∈ gs, g.Holds (bitOf (w ++ v))) ↔ v = r) := by
  induction gs generalizing w with
  | nil =>
    refine ⟨[], by simp [runGates], rfl, ?_⟩
    intro v hv
    simp at hv
    simp [hv]
  | cons g gs ih =>
    obtain ⟨ho, hl, hr, ht⟩ := h
    set val := g.type.fn (bitOf w g.leftWire) (bitOf w g.rightWire) with hval
    obtain ⟨r, h1, h2, h3⟩ := ih (w ++ [val]) (by simpa using ht)
    refine ⟨val :: r, ?_, by simp [h2], ?_⟩
    · unfold runGates at h1 ⊢
      rw [List.foldlM_cons, gate_evaluate hl hr]
      simpa using h1
    · intro v hv
      cases v with
      | nil => simp at hv
      | cons x v =>
        have hg : g.Holds (bitOf (w ++ x :: v)) ↔ x = val := by
          unfold TbcsGate.Holds
          rw [ho, bitOf_append_next, bitOf_append_left _ _ hl, bitOf_append_left _ _ hr]
        simp only [List.mem_cons, forall_eq_or_imp, hg, List.cons.injEq]
        constructor
        · rintro ⟨rfl, hrest⟩
          refine ⟨rfl, (h3 v (by simpa using hv)).1 ?_⟩
          intro g' hg'
          have := hrest g' hg'
          simpa using this
        · rintro ⟨rfl, rfl⟩
          refine ⟨rfl, ?_⟩
          intro g' hg'
          have := (h3 v (by simpa using hv)).2 rfl g' hg'
          simpa using this

theorem mapM_outputs (gs : List TbcsGate) (w : List Bool)
    (h : ∀ g ∈ gs, 0 < g.output ∧ g.output ≤ w.length) :
    (gs.mapM fun g => if g.output = 0 then none else w[g.output - 1]?) =
      some (gs.map fun g => bitOf w g.output) := by
  induction gs with
  | nil => rfl
  | cons g gs ih =>
    obtain ⟨h1, h2⟩ := h g (by simp)
    rw [List.mapM_cons, ih (fun g' hg' => h g' (by simp [hg']))]
    have : (if g.output = 0 then none else w[g.output - 1]?) = some (bitOf w g.output) := by
      rw [if_neg (by omega)]
      obtain ⟨k, hk⟩ : ∃ k, g.output = k + 1 := ⟨g.output - 1, by omega⟩
      rw [hk] at h2 ⊢
      simp only [Nat.add_sub_cancel, bitOf]
      rw [List.getElem?_eq_getElem (by omega), List.getD_eq_getElem _ _ (by omega)]
    rw [this]; rfl

theorem satisfied_spec (c : Tbcs) (h : Topo c.numInputs c.gates) (p a : List Bool)
    (hlen : p.length + a.length = c.numInputs) :
    ∃ r, c.allWires p a = some (p ++ a ++ r) ∧ r.length = c.gates.length ∧
      (∀ v : List Bool, v.length = c.gates.length →
        ((∀ g ∈ c.gates, g.Holds (bitOf (p ++ a ++ v))) ↔ v = r)) ∧
      c.allOutputs p a =
        some ((c.gates.filter (·.isCircuitOutput)).map fun g => bitOf (p ++ a ++ r) g.output) := by
  obtain ⟨r, h1, h2, h3⟩ := run_spec c.gates (p ++ a) (by simpa [hlen] using h)
  refine ⟨r, h1, h2, h3, ?_⟩
  unfold allOutputs allWires
  rw [h1]
  simp only [Option.bind_some]
  rw [mapM_outputs]
  intro g hg
  have := topo_output_le h g (List.mem_filter.1 hg).1
  simp only [List.length_append, h2]
  omega

theorem isSatisfied_eq (c : Tbcs) (p a outs : List Bool) (h : c.allOutputs p a = some outs) :
    c.isSatisfied p a = some (outs.all fun v => !v) := by
  simp [isSatisfied, h]

/-! ### the USCS side -/

/-- integer value of a bit -/
def bi (b : Bool) : ℤ := if b then 1 else 0
/-- field value of a bit -/
def bf (F : Type*) [Field F] (b : Bool) : F := if b then 1 else 0

theorem bf_eq (b : Bool) : bf F b = ((bi b : ℤ) : F) := by cases b <;> simp [bf, bi]

/-- the table's integer expression -/
def tableValue (t : TbcsGateType) (x y z : ℤ) : ℤ :=
  (gateCoeffs t).1 * x + (gateCoeffs t).2.1 * y + (gateCoeffs t).2.2.1 * z + (gateCoeffs t).2.2.2

theorem formalValue_gate (g : TbcsGate) (e : Nat → F) (h0 : e 0 = 1) :
    formalValue (gateConstraint (F := F) g) e =
      ((gateCoeffs g.type).1 : F) * e g.leftWire + ((gateCoeffs g.type).2.1 : F) * e g.rightWire +
      ((gateCoeffs g.type).2.2.1 : F) * e g.output + ((gateCoeffs g.type).2.2.2 : F) := by
  simp only [gateConstraint, formalValue_add, ofConst, termScale, ofVar]
  simp [formalValue, h0]

theorem formalValue_boolean (i : Nat) (e : Nat → F) (h0 : e 0 = 1) :
    formalValue (booleanConstraint (F := F) i) e = 2 * e i - 1 := by
  simp only [booleanConstraint, LinComb.sub, LinComb.neg, formalValue_add, formalValue_scale,
    ofConst, termScale, ofVar]
  simp [formalValue, h0, sub_eq_add_neg]

theorem formalValue_output (g : TbcsGate) (e : Nat → F) (h0 : e 0 = 1) :
    formalValue (outputConstraint (F := F) g) e = e g.output + 1 := by
  simp [outputConstraint, varAdd, ofConst, termScale, ofVar, formalValue, h0, add_comm]

theorem table_good : ∀ (t : TbcsGateType) (x y : Bool),
    tableValue t (bi x) (bi y) (bi (t.fn x y)) = 1 ∨ tableValue t (bi x) (bi y) (bi (t.fn x y)) = -1 := by
  intro t x y; cases t <;> cases x <;> cases y <;> decide

theorem table_bad : ∀ (t : TbcsGateType) (x y : Bool),
    tableValue t (bi x) (bi y) (bi (!(t.fn x y))) ^ 2 - 1 ∣ 2 ^ 10 * 3 ^ 10 := by
  intro t x y; cases t <;> cases x <;> cases y <;> decide

theorem table_last : ∀ (t : TbcsGateType) (x y : Bool), t.fn x y = true →
    tableValue t (bi x) (bi y) 0 ^ 2 - 1 ∣ 2 ^ 10 * 3 ^ 10 * 5 ^ 10 * 7 ^ 10 ∧
    tableValue t (bi x) (bi y) (-2) ^ 2 - 1 ∣ 2 ^ 10 * 3 ^ 10 * 5 ^ 10 * 7 ^ 10 := by
  intro t x y; cases t <;> cases x <;> cases y <;> decide

theorem int_dvd_ne_zero {m n : ℤ} (h : m ∣ n) (hn : (n : F) ≠ 0) : (m : F) ≠ 0 := by
  obtain ⟨k, rfl⟩ := h
  intro h0
  apply hn
  push_cast
  rw [h0, zero_mul]

theorem gate_iff (h2 : (2 : F) ≠ 0) (h3 : (3 : F) ≠ 0) (t : TbcsGateType) (x y z : Bool) :
    (((gateCoeffs t).1 : F) * bf F x + ((gateCoeffs t).2.1 : F) * bf F y +
      ((gateCoeffs t).2.2.1 : F) * bf F z + ((gateCoeffs t).2.2.2 : F) = 1 ∨
     ((gateCoeffs t).1 : F) * bf F x + ((gateCoeffs t).2.1 : F) * bf F y +
      ((gateCoeffs t).2.2.1 : F) * bf F z + ((gateCoeffs t).2.2.2 : F) = -1) ↔ z = t.fn x y := by
  have e : ((gateCoeffs t).1 : F) * bf F x + ((gateCoeffs t).2.1 : F) * bf F y +
      ((gateCoeffs t).2.2.1 : F) * bf F z + ((gateCoeffs t).2.2.2 : F) =
      ((tableValue t (bi x) (bi y) (bi z) : ℤ) : F) := by
    simp [tableValue, bf_eq]
  rw [e]
  constructor
  · intro h
    by_contra hne
    have hz : z = !(t.fn x y) := by cases z <;> cases h' : t.fn x y <;> simp_all
    rw [hz] at h
    have h6 : (((2 ^ 10 * 3 ^ 10 : ℤ)) : F) ≠ 0 := by
      simp only [Int.cast_mul, Int.cast_pow, Int.cast_ofNat]
      exact mul_ne_zero (pow_ne_zero _ h2) (pow_ne_zero _ h3)
    apply int_dvd_ne_zero (table_bad t x y) h6
    push_cast
    rcases h with h | h <;> rw [h] <;> ring
  · rintro rfl
    rcases table_good t x y with h | h <;> rw [h] <;> simp

theorem bool_of_sq (h2 : (2 : F) ≠ 0) {x : F} (h : 2 * x - 1 = 1 ∨ 2 * x - 1 = -1) :
    ∃ b, x = bf F b := by
  rcases h with h | h
  · refine ⟨true, ?_⟩
    have : (2 : F) * (x - 1) = 0 := by linear_combination h
    rcases mul_eq_zero.1 this with h' | h'
    · exact absurd h' h2
    · simp only [bf, if_true]; exact sub_eq_zero.1 h'
  · refine ⟨false, ?_⟩
    have : (2 : F) * x = 0 := by linear_combination h
    rcases mul_eq_zero.1 this with h' | h'
    · exact absurd h' h2
    · simpa [bf] using h'

theorem envOf_toField (w : List Bool) {i : Nat} (hi : i ≤ w.length) :
    envOf (toField F w) i = bf F (bitOf w i) := by
  cases i with
  | zero => simp [envOf, bitOf, bf]
  | succ j =>
    have : j < w.length := hi
    have hb : bitOf w (j + 1) = w[j] := by simp only [bitOf]; rw [List.getD_eq_getElem _ _ this]
    rw [hb]
    simp only [envOf, toField]
    rw [List.getD_eq_getElem _ _ (by simpa using this)]
    simp [bf]

theorem toUSCS_sat (c : Tbcs) (P V : List F) :
    (c.toUSCS F).Sat P V ↔
      (∀ g ∈ c.gates,
        ((gateCoeffs g.type).1 : F) * envOf (P ++ V) g.leftWire +
          ((gateCoeffs g.type).2.1 : F) * envOf (P ++ V) g.rightWire +
          ((gateCoeffs g.type).2.2.1 : F) * envOf (P ++ V) g.output +
          ((gateCoeffs g.type).2.2.2 : F) = 1 ∨
        ((gateCoeffs g.type).1 : F) * envOf (P ++ V) g.leftWire +
          ((gateCoeffs g.type).2.1 : F) * envOf (P ++ V) g.rightWire +
          ((gateCoeffs g.type).2.2.1 : F) * envOf (P ++ V) g.output +
          ((gateCoeffs g.type).2.2.2 : F) = -1) ∧
      (∀ i < c.numInputs + c.gates.length,
        2 * envOf (P ++ V) i - 1 = 1 ∨ 2 * envOf (P ++ V) i - 1 = -1) ∧
      (∀ g ∈ c.gates, g.isCircuitOutput = true →
        envOf (P ++ V) g.output + 1 = 1 ∨ envOf (P ++ V) g.output + 1 = -1) := by
  have h0 : envOf (P ++ V) 0 = 1 := rfl
  unfold USCS.Sat
  simp only [toUSCS, List.mem_append, List.mem_map, List.mem_filter, List.mem_range]
  constructor
  · intro h
    refine ⟨fun g hg => ?_, fun i hi => ?_, fun g hg ho => ?_⟩
    · rw [← formalValue_gate g _ h0]; exact h _ (Or.inl (Or.inl ⟨g, hg, rfl⟩))
    · rw [← formalValue_boolean i _ h0]; exact h _ (Or.inl (Or.inr ⟨i, hi, rfl⟩))
    · rw [← formalValue_output g _ h0]; exact h _ (Or.inr ⟨g, ⟨hg, ho⟩, rfl⟩)
  · rintro ⟨h1, h2, h3⟩ k ((⟨g, hg, rfl⟩ | ⟨i, hi, rfl⟩) | ⟨g, ⟨hg, ho⟩, rfl⟩)
    · rw [formalValue_gate g _ h0]; exact h1 g hg
    · rw [formalValue_boolean i _ h0]; exact h2 i hi
    · rw [formalValue_output g _ h0]; exact h3 g hg ho

theorem toUSCS_wellRanged (c : Tbcs) (h : Topo c.numInputs c.gates) :
    (c.toUSCS F).WellRanged := by
  intro k hk
  have hn : (c.toUSCS F).numVariables = c.numInputs + c.gates.length := by
    simp [USCS.numVariables, toUSCS, numInputs]; omega
  rw [hn]
  have single : ∀ (i m : Nat) (x : F), i ≤ m → IndicesLE [(⟨i, x⟩ : LinearTerm F)] m := by
    intro i m x hi t ht; simp at ht; subst ht; exact hi
  simp only [toUSCS, List.mem_append, List.mem_map, List.mem_filter, List.mem_range] at hk
  rcases hk with ((⟨g, hg, rfl⟩ | ⟨i, hi, rfl⟩) | ⟨g, ⟨hg, ho⟩, rfl⟩)
  · have := topo_output_le h g hg
    simp only [gateConstraint, indicesLE_add, ofConst, termScale, ofVar]
    refine ⟨⟨⟨single _ _ _ ?_, single _ _ _ ?_⟩, single _ _ _ ?_⟩, single _ _ _ ?_⟩ <;> omega
  · simp only [booleanConstraint, LinComb.sub, LinComb.neg, indicesLE_add, indicesLE_scale,
      ofConst, termScale, ofVar]
    have : i < c.numInputs + c.gates.length := hi
    refine ⟨single _ _ _ ?_, single _ _ _ ?_⟩ <;> omega
  · have := topo_output_le h g hg
    intro t ht
    simp only [outputConstraint, varAdd, ofConst, termScale, ofVar, List.mem_append,
      List.mem_singleton] at ht
    rcases ht with rfl | rfl
    · simp
    · simp; omega

end Tbcs

/-- meaning of the USCS `is_satisfied` -/
theorem uscs_isSatisfied (cs : USCS F) (hr : cs.WellRanged) (p w : List F)
    (hlen : p.length + w.length = cs.numVariables) :
    (cs.isSatisfied p w = some true ↔ cs.Sat p w) ∧
    (cs.isSatisfied p w = some false ↔ ¬ cs.Sat p w) := by
  have hl : (p ++ w).length = cs.numVariables := by simp [hlen]
  unfold USCS.isSatisfied USCS.Sat
  have hk := hr
  unfold USCS.WellRanged at hk
  rw [← hl] at hk
  generalize p ++ w = full at *
  generalize cs.constraints = ks at *
  clear hr hl hlen
  induction ks with
  | nil => simp [USCS.satisfiedLoop]
  | cons k ks ih =>
    have ih' := ih (fun k' hk' => hk k' (by simp [hk']))
    simp only [USCS.satisfiedLoop, evaluate_eq_some (hk k (by simp)),
      List.mem_cons, forall_eq_or_imp, mul_self_eq_one_iff]
    by_cases he : formalValue k (envOf full) = 1 ∨ formalValue k (envOf full) = -1
    · simp only [he, if_true, true_and]; exact ih'
    · simp [he]

end Crypto3Zk
