import Verif.Lemmas.Circuits
import Mathlib.Tactic.IntervalCases

/-!
# C21, C22, C23: circuits and their reductions
-/

set_option linter.unusedSectionVars false

namespace Crypto3Zk

variable {F : Type*} [Field F] [DecidableEq F]

open LinComb

/-! ## C21 -/

/-- C21: on a valid circuit and inputs of the declared sizes, the circuit and the R1CS give the same
(defined) verdict, the latter on the auxiliary part of the computed witness. -/
theorem C21_bacs_r1cs_agree (c : Bacs F) (hv : c.isValid = some true) (p a : List F)
    (hp : p.length = c.primaryInputSize) (ha : a.length = c.auxiliaryInputSize) :
    ∃ w b, c.witnessMap p a = some w ∧ w.take p.length = p ∧
      c.isSatisfied p a = some b ∧ c.toR1CS.isSatisfied p (w.drop p.length) = some b := by
  have ht : Bacs.Topo c.numInputs c.gates := by
    simpa using Bacs.topo_of_validFrom _ _ 0 hv
  have hlen : p.length + a.length = c.numInputs := by simp [Bacs.numInputs, hp, ha]
  obtain ⟨r, h1, h2, h3, h4⟩ := Bacs.satisfied_spec c ht p a hlen
  refine ⟨p ++ a ++ r, ((c.gates.filter (·.isCircuitOutput)).map fun g =>
    envOf (p ++ a ++ r) g.output).all fun v => decide (v = 0), h1, by simp,
    by rw [Bacs.isSatisfied, h4]; rfl, ?_⟩
  have hd : (p ++ a ++ r).drop p.length = a ++ r := by simp
  rw [hd]
  have hwr := Bacs.toR1CS_wellRanged c ht
  have hn : p.length + (a ++ r).length = c.toR1CS.numVariables := by
    simp [R1CS.numVariables, Bacs.toR1CS, hp, ha, h2]
  have hs := C16_isSatisfied_iff c.toR1CS hwr p (a ++ r) hn
  have hiff : c.toR1CS.Sat p (a ++ r) ↔
      (((c.gates.filter (·.isCircuitOutput)).map fun g => envOf (p ++ a ++ r) g.output).all
        fun v => decide (v = 0)) = true := by
    rw [Bacs.toR1CS_sat, ← List.append_assoc]
    have := (h3 r h2).2 rfl
    simp only [List.all_eq_true, List.mem_map, List.mem_filter, decide_eq_true_eq]
    constructor
    · rintro ⟨_, h⟩ x ⟨g, ⟨hg, ho⟩, rfl⟩; exact h g hg ho
    · intro h; exact ⟨this, fun g hg ho => h _ ⟨g, ⟨hg, ho⟩, rfl⟩⟩
  cases hb : (((c.gates.filter (·.isCircuitOutput)).map fun g => envOf (p ++ a ++ r) g.output).all
        fun v => decide (v = 0)) with
  | true => exact hs.1.2 (hiff.2 hb)
  | false => exact hs.2.2 (fun h => by rw [hiff.1 h] at hb; simp at hb)

/-- C21: an auxiliary vector satisfies the R1CS exactly when it is the circuit's auxiliary input
followed by the values the circuit computes for its gates, and the circuit accepts. -/
theorem C21_bacs_r1cs_only_wires (c : Bacs F) (hv : c.isValid = some true) (p v : List F)
    (hp : p.length = c.primaryInputSize)
    (hl : v.length = c.auxiliaryInputSize + c.gates.length) :
    c.toR1CS.isSatisfied p v = some true ↔
      c.allWires p (v.take c.auxiliaryInputSize) = some (p ++ v) ∧
      c.isSatisfied p (v.take c.auxiliaryInputSize) = some true := by
  have ht : Bacs.Topo c.numInputs c.gates := by
    simpa using Bacs.topo_of_validFrom _ _ 0 hv
  set a := v.take c.auxiliaryInputSize with ha'
  have ha : a.length = c.auxiliaryInputSize := by simp [ha', hl]
  set u := v.drop c.auxiliaryInputSize with hu'
  have hu : u.length = c.gates.length := by simp [hu', hl]
  have hvau : v = a ++ u := (List.take_append_drop _ _).symm
  have hlen : p.length + a.length = c.numInputs := by simp [Bacs.numInputs, hp, ha]
  obtain ⟨r, h1, h2, h3, h4⟩ := Bacs.satisfied_spec c ht p a hlen
  have hwr := Bacs.toR1CS_wellRanged c ht
  have hn : p.length + v.length = c.toR1CS.numVariables := by
    simp [R1CS.numVariables, Bacs.toR1CS, hp, hl]
  rw [(C16_isSatisfied_iff c.toR1CS hwr p v hn).1, Bacs.toR1CS_sat, h1, Bacs.isSatisfied, h4]
  rw [hvau, ← List.append_assoc]
  rw [h3 u hu]
  simp only [Option.map_some, Option.some.injEq, List.all_eq_true, List.mem_map, List.mem_filter,
    decide_eq_true_eq, List.append_cancel_left_eq]
  constructor
  · rintro ⟨rfl, h⟩
    refine ⟨rfl, ?_⟩
    rintro x ⟨g, ⟨hg, ho⟩, rfl⟩; exact h g hg ho
  · rintro ⟨rfl, h⟩
    refine ⟨rfl, ?_⟩
    intro g hg ho; exact h _ ⟨g, ⟨hg, ho⟩, rfl⟩

/-- (x1 + 2)·x2 , then (w3 - 6)·1 as the output: accepts x1 = 1, x2 = 2 -/
def exampleBacs : Bacs ℚ :=
  ⟨1, 1, [⟨[⟨0, 2⟩, ⟨1, 1⟩], [⟨2, 1⟩], 3, false⟩, ⟨[⟨0, -6⟩, ⟨3, 1⟩], [⟨0, 1⟩], 4, true⟩]⟩

example : exampleBacs.isValid = some true := by decide
example : exampleBacs.isSatisfied [1] [2] = some true := by decide +kernel
example : exampleBacs.isSatisfied [1] [3] = some false := by decide +kernel
example : exampleBacs.toR1CS.isSatisfied [1] [2, 6, 0] = some true := by decide +kernel

/-! ## C22 -/

/-- The opcode trick computes the boolean function the gate type is named after. -/
theorem C22_gate_truth_table (t : TbcsGateType) (x y : Bool) : t.bit x y = t.fn x y :=
  Tbcs.bit_eq_fn t x y

/-- C22 (both directions on computed witnesses): the circuit and the USCS give the same verdict,
in every field whose characteristic is not 2 or 3. -/
theorem C22_tbcs_uscs_agree (h2 : (2 : F) ≠ 0) (h3 : (3 : F) ≠ 0) (c : Tbcs)
    (hv : c.isValid = true) (p a : List Bool)
    (hp : p.length = c.primaryInputSize) (ha : a.length = c.auxiliaryInputSize) :
    ∃ w b, c.witnessMap F p a = some w ∧ w.take p.length = Tbcs.toField F p ∧
      c.isSatisfied p a = some b ∧
      (c.toUSCS F).isSatisfied (Tbcs.toField F p) (w.drop p.length) = some b := by
  have ht : Tbcs.Topo c.numInputs c.gates := by
    simpa using Tbcs.topo_of_validFrom _ _ 0 hv
  have hlen : p.length + a.length = c.numInputs := by simp [Tbcs.numInputs, hp, ha]
  obtain ⟨r, h1, hr, h3', h4⟩ := Tbcs.satisfied_spec c ht p a hlen
  have hmap : ∀ x y : List Bool, Tbcs.toField F (x ++ y) = Tbcs.toField F x ++ Tbcs.toField F y := by
    simp [Tbcs.toField]
  have hl : ∀ x : List Bool, (Tbcs.toField F x).length = x.length := by simp [Tbcs.toField]
  refine ⟨Tbcs.toField F (p ++ a ++ r), _, by rw [Tbcs.witnessMap, h1]; rfl, ?_,
    Tbcs.isSatisfied_eq c p a _ h4, ?_⟩
  · rw [List.append_assoc, hmap, ← hl p]; simp
  have hd : (Tbcs.toField F (p ++ a ++ r)).drop p.length = Tbcs.toField F (a ++ r) := by
    rw [List.append_assoc, hmap, ← hl p]; simp
  rw [hd]
  have hwr := Tbcs.toUSCS_wellRanged (F := F) c ht
  have hn : (Tbcs.toField F p).length + (Tbcs.toField F (a ++ r)).length =
      (c.toUSCS F).numVariables := by
    simp [USCS.numVariables, Tbcs.toUSCS, hl, hp, ha, hr]
  have hs := uscs_isSatisfied (c.toUSCS F) hwr _ _ hn
  set w := p ++ a ++ r with hw
  have hwl : w.length = c.numInputs + c.gates.length := by simp [hw, hr]; omega
  have hiff : (c.toUSCS F).Sat (Tbcs.toField F p) (Tbcs.toField F (a ++ r)) ↔
      (((c.gates.filter (·.isCircuitOutput)).map fun g => bitOf w g.output).all
        fun v => !v) = true := by
    rw [Tbcs.toUSCS_sat, ← hmap, ← List.append_assoc, ← hw]
    have hG := (h3' r hr).2 rfl
    have e1 : ∀ g ∈ c.gates, g.leftWire ≤ w.length ∧ g.rightWire ≤ w.length ∧
        g.output ≤ w.length := by
      intro g hg
      have := Tbcs.topo_output_le ht g hg
      omega
    have hout : ∀ b : Bool, (Tbcs.bf F b + 1 = 1 ∨ Tbcs.bf F b + 1 = -1) ↔ b = false := by
      intro b
      cases b with
      | false => simp [Tbcs.bf]
      | true =>
        simp only [Tbcs.bf, if_true]
        constructor
        · rintro (h | h)
          · exact absurd (by linear_combination h) (one_ne_zero (α := F))
          · exact absurd (by linear_combination h) h3
        · intro h; simp at h
    simp only [List.all_eq_true, List.mem_map, List.mem_filter, Bool.not_eq_true']
    constructor
    · rintro ⟨_, _, h⟩ x ⟨g, ⟨hg, ho⟩, rfl⟩
      have := h g hg ho
      rw [Tbcs.envOf_toField w (e1 g hg).2.2] at this
      exact (hout _).1 this
    · intro h
      refine ⟨fun g hg => ?_, fun i hi => ?_, fun g hg ho => ?_⟩
      · obtain ⟨a1, a2, a3⟩ := e1 g hg
        rw [Tbcs.envOf_toField w a1, Tbcs.envOf_toField w a2, Tbcs.envOf_toField w a3]
        exact (Tbcs.gate_iff h2 h3 g.type _ _ _).2 (hG g hg)
      · rw [Tbcs.envOf_toField w (by omega)]
        cases bitOf w i
        · right; simp [Tbcs.bf]
        · left; simp only [Tbcs.bf, if_true]; ring
      · rw [Tbcs.envOf_toField w (e1 g hg).2.2]
        exact (hout _).2 (h _ ⟨g, ⟨hg, ho⟩, rfl⟩)
  cases hb : (((c.gates.filter (·.isCircuitOutput)).map fun g => bitOf w g.output).all
        fun v => !v) with
  | true => exact hs.1.2 (hiff.2 hb)
  | false => exact hs.2.2 (fun h => by rw [hiff.1 h] at hb; simp at hb)

/-- C22 (soundness, against arbitrary field vectors): if the USCS accepts any primary and auxiliary
vectors over a field of characteristic other than 2, 3, 5, 7, then the input parts are
bit vectors on which the circuit accepts. The circuit must have at least one gate. -/
theorem C22_uscs_sound (h2 : (2 : F) ≠ 0) (h3 : (3 : F) ≠ 0) (h5 : (5 : F) ≠ 0) (h7 : (7 : F) ≠ 0)
    (c : Tbcs) (hv : c.isValid = true) (hg : c.gates ≠ []) (P V : List F)
    (hP : P.length = c.primaryInputSize)
    (hV : V.length = c.auxiliaryInputSize + c.gates.length)
    (hsat : (c.toUSCS F).isSatisfied P V = some true) :
    ∃ p a : List Bool, P = Tbcs.toField F p ∧ V.take c.auxiliaryInputSize = Tbcs.toField F a ∧
      c.isSatisfied p a = some true := by
  have ht : Tbcs.Topo c.numInputs c.gates := by
    simpa using Tbcs.topo_of_validFrom _ _ 0 hv
  have hwr := Tbcs.toUSCS_wellRanged (F := F) c ht
  have hn : P.length + V.length = (c.toUSCS F).numVariables := by
    simp [USCS.numVariables, Tbcs.toUSCS, hP, hV]
  rw [(uscs_isSatisfied _ hwr _ _ hn).1, Tbcs.toUSCS_sat] at hsat
  obtain ⟨hgates, hbool, houts⟩ := hsat
  -- the last gate
  obtain ⟨init, last, hil⟩ : ∃ init last, c.gates = init ++ [last] :=
    ⟨_, _, (List.dropLast_append_getLast hg).symm⟩
  set full := P ++ V with hfull
  have hfl : full.length = c.numInputs + c.gates.length := by
    simp [hfull, hP, hV, Tbcs.numInputs]; omega
  have hgl : c.gates.length = init.length + 1 := by rw [hil]; simp
  -- all wires but the last are bits
  have hbits : ∃ bits : List Bool, full.take (c.numInputs + init.length) = Tbcs.toField F bits := by
    have key : ∀ l : List F, (∀ x ∈ l, ∃ b, x = Tbcs.bf F b) → ∃ bits, l = Tbcs.toField F bits := by
      intro l
      induction l with
      | nil => intro _; exact ⟨[], rfl⟩
      | cons x l ih =>
        intro h
        obtain ⟨b, hb⟩ := h x (by simp)
        obtain ⟨bs, hbs⟩ := ih (fun y hy => h y (by simp [hy]))
        exact ⟨b :: bs, by rw [hb, hbs]; rfl⟩
    apply key
    intro x hx
    obtain ⟨i, hi, rfl⟩ := List.getElem_of_mem hx
    simp only [List.length_take] at hi
    have h := hbool (i + 1) (by omega)
    obtain ⟨b, hb⟩ := Tbcs.bool_of_sq h2 h
    refine ⟨b, ?_⟩
    rw [← hb]
    simp only [envOf]
    rw [List.getD_eq_getElem _ _ (by omega)]
    simp
  obtain ⟨bits, hbits⟩ := hbits
  have hbl : bits.length = c.numInputs + init.length := by
    have := congrArg List.length hbits
    simp [Tbcs.toField, hfl, hgl] at this
    omega
  have henv : ∀ i ≤ bits.length, envOf full i = Tbcs.bf F (bitOf bits i) := by
    intro i hi
    rw [← Tbcs.envOf_toField bits hi, ← hbits]
    conv_lhs => rw [← List.take_append_drop (c.numInputs + init.length) full]
    apply envOf_append_left
    simp; omega
  obtain ⟨ht1, ht2⟩ := Tbcs.topo_append (hil ▸ ht)
  -- the input part
  set inp := bits.take c.numInputs with hinp
  set r := bits.drop c.numInputs with hr
  have hbr : bits = inp ++ r := (List.take_append_drop _ _).symm
  have hil' : inp.length = c.numInputs := by simp [hinp, hbl]
  have hrl : r.length = init.length := by simp [hr, hbl]
  refine ⟨inp.take c.primaryInputSize, inp.drop c.primaryInputSize, ?_, ?_, ?_⟩
  · have : P = full.take c.primaryInputSize := by simp [hfull, ← hP]
    rw [this]
    have := congrArg (List.take c.primaryInputSize) hbits
    rw [List.take_take, min_eq_left (by simp [Tbcs.numInputs]; omega)] at this
    rw [this, hinp, List.take_take, min_eq_left (by simp [Tbcs.numInputs])]
    simp [Tbcs.toField]
  · have : V.take c.auxiliaryInputSize = (full.take c.numInputs).drop c.primaryInputSize := by
      rw [List.drop_take, hfull, ← hP]
      simp [Tbcs.numInputs, ← hP]
    rw [this]
    have := congrArg (List.take c.numInputs) hbits
    rw [List.take_take, min_eq_left (by omega)] at this
    rw [this, hinp]
    simp [Tbcs.toField]
  · have hlen : (inp.take c.primaryInputSize).length + (inp.drop c.primaryInputSize).length
        = c.numInputs := by
      simp [hil', Tbcs.numInputs]
    obtain ⟨s, _, hs2, hs3, hs4⟩ := Tbcs.satisfied_spec c ht (inp.take c.primaryInputSize)
      (inp.drop c.primaryInputSize) hlen
    rw [List.take_append_drop] at hs3 hs4
    rw [Tbcs.isSatisfied_eq c _ _ _ hs4]
    -- the computed wires are `bits` and the value of the last gate
    obtain ⟨l1, l2, l3, _⟩ := ht2
    set z := last.type.fn (bitOf bits last.leftWire) (bitOf bits last.rightWire) with hz
    have hinit : ∀ g ∈ init, g.output ≤ bits.length ∧ g.leftWire ≤ bits.length ∧
        g.rightWire ≤ bits.length := by
      intro g hg'
      have := Tbcs.topo_output_le ht1 g hg'
      omega
    have hs : r ++ [z] = s := by
      apply (hs3 (r ++ [z]) (by simp [hrl, hgl])).1
      rw [← List.append_assoc, ← hbr]
      intro g hg'
      rw [hil, List.mem_append, List.mem_singleton] at hg'
      rcases hg' with hg' | rfl
      · obtain ⟨a1, a2, a3⟩ := hinit g hg'
        unfold TbcsGate.Holds
        rw [Tbcs.bitOf_append_left _ _ a1, Tbcs.bitOf_append_left _ _ a2,
          Tbcs.bitOf_append_left _ _ a3]
        have := hgates g (by rw [hil]; simp [hg'])
        rw [henv _ a1, henv _ a2, henv _ a3] at this
        exact (Tbcs.gate_iff h2 h3 _ _ _ _).1 this
      · unfold TbcsGate.Holds
        rw [Tbcs.bitOf_append_left _ _ (by omega : g.leftWire ≤ bits.length),
          Tbcs.bitOf_append_left _ _ (by omega : g.rightWire ≤ bits.length), l1, ← hbl,
          Tbcs.bitOf_append_next]
    have hall : inp ++ s = bits ++ [z] := by rw [← hs, ← List.append_assoc, ← hbr]
    rw [hall]
    simp only [Option.some.injEq, List.all_eq_true, List.mem_map, List.mem_filter,
      Bool.not_eq_true']
    rintro x ⟨g, ⟨hg', ho⟩, rfl⟩
    have hout := houts g hg' ho
    have hgc := hgates g hg'
    rw [hil, List.mem_append, List.mem_singleton] at hg'
    rcases hg' with hg' | rfl
    · obtain ⟨a1, _, _⟩ := hinit g hg'
      rw [Tbcs.bitOf_append_left _ _ a1]
      rw [henv _ a1] at hout
      cases hb : bitOf bits g.output with
      | false => rfl
      | true =>
        rw [hb] at hout
        simp only [Tbcs.bf, if_true] at hout
        rcases hout with h | h
        · exact absurd (by linear_combination h) (one_ne_zero (α := F))
        · exact absurd (by linear_combination h) h3
    · rw [l1, ← hbl, Tbcs.bitOf_append_next]
      cases hzv : z with
      | false => rfl
      | true =>
        exfalso
        obtain ⟨t1, t2⟩ := Tbcs.table_last g.type _ _ (hz ▸ hzv)
        have hM : ((2 ^ 10 * 3 ^ 10 * 5 ^ 10 * 7 ^ 10 : ℤ) : F) ≠ 0 := by
          simp only [Int.cast_mul, Int.cast_pow, Int.cast_ofNat]
          exact mul_ne_zero (mul_ne_zero (mul_ne_zero (pow_ne_zero _ h2) (pow_ne_zero _ h3))
            (pow_ne_zero _ h5)) (pow_ne_zero _ h7)
        have n1 := Tbcs.int_dvd_ne_zero t1 hM
        have n2 := Tbcs.int_dvd_ne_zero t2 hM
        rw [henv _ (by omega : g.leftWire ≤ bits.length),
          henv _ (by omega : g.rightWire ≤ bits.length), Tbcs.bf_eq, Tbcs.bf_eq] at hgc
        have hzv' : envOf full g.output = 0 ∨ envOf full g.output = -2 := by
          rcases hout with h | h
          · left; linear_combination h
          · right; linear_combination h
        rcases hzv' with h | h
        · apply n1
          rw [h] at hgc
          simp only [Tbcs.tableValue]
          push_cast
          rcases hgc with e | e <;> (push_cast at e ⊢; rw [e]; ring)
        · apply n2
          rw [h] at hgc
          simp only [Tbcs.tableValue]
          push_cast
          rcases hgc with e | e <;> (push_cast at e ⊢; rw [e]; ring)

/-- x1 AND x2, negated as output -/
def exampleTbcs : Tbcs := ⟨1, 1, [⟨1, 2, .and, 3, false⟩, ⟨3, 0, .notX, 4, true⟩]⟩

example : exampleTbcs.isValid = true := by decide
example : exampleTbcs.isSatisfied [true] [true] = some true := by decide
example : exampleTbcs.isSatisfied [true] [false] = some false := by decide
example : (exampleTbcs.toUSCS ℚ).isSatisfied [1] [1, 1, 0] = some true := by decide +kernel
example : (2 : ℚ) ≠ 0 ∧ (3 : ℚ) ≠ 0 ∧ (5 : ℚ) ≠ 0 ∧ (7 : ℚ) ≠ 0 := by norm_num

/-- C22 (finding): the booleanity loop runs over wires 0..n-1 instead of 1..n, so the last wire is
not forced to be a bit: an AND gate with inputs 0, 0 admits the output -1/2. -/
theorem C22_last_wire_not_boolean :
    ((⟨2, 0, [⟨1, 2, .and, 3, false⟩]⟩ : Tbcs).toUSCS ℚ).isSatisfied [0, 0] [-1 / 2] = some true := by
  decide +kernel

/-- C22 (finding): without gates the last input wire is unconstrained, so the USCS accepts
a non-boolean input. -/
theorem C22_no_gates_accepts_non_boolean :
    ((⟨1, 0, []⟩ : Tbcs).toUSCS ℚ).isSatisfied [7] [] = some true := by
  decide +kernel

/-- C22 (finding): in characteristic 5 the missing booleanity constraint breaks soundness: the
circuit `NOT(x1 XOR x2)` as output rejects input (0,0), the USCS accepts it with wire 3.
(`3 = -2` mod 5.) -/
theorem C22_unsound_mod_5 :
    (⟨2, 0, [⟨1, 2, .equiv, 3, true⟩]⟩ : Tbcs).isSatisfied [false, false] [] = some false ∧
    ∀ (K : Type) [Field K] [DecidableEq K], (5 : K) = 0 →
      ((⟨2, 0, [⟨1, 2, .equiv, 3, true⟩]⟩ : Tbcs).toUSCS K).isSatisfied [0, 0] [3] = some true := by
  refine ⟨by decide, ?_⟩
  intro K _ _ h5
  set c : Tbcs := ⟨2, 0, [⟨1, 2, .equiv, 3, true⟩]⟩ with hc
  have ht : Tbcs.Topo c.numInputs c.gates := by
    simp [hc, Tbcs.Topo, Tbcs.numInputs]
  have hwr := Tbcs.toUSCS_wellRanged (F := K) c ht
  rw [(uscs_isSatisfied _ hwr _ _ rfl).1, Tbcs.toUSCS_sat]
  refine ⟨?_, ?_, ?_⟩
  · intro g hg
    simp [hc] at hg
    subst hg
    left
    simp [Tbcs.gateCoeffs, envOf]
    norm_num
  · intro i hi
    simp [hc, Tbcs.numInputs] at hi
    interval_cases i
    · left; simp [envOf]; norm_num
    · right; simp [envOf]
    · right; simp [envOf]
  · intro g hg ho
    simp [hc] at hg
    subst hg
    right
    simp [envOf]
    linear_combination h5

/-! ## C23 -/

/-- C23 (BACS wires): on a valid circuit and inputs of the declared sizes, computing all wires is
defined, keeps the inputs, gives every gate the product of its two sides, and reads only wires with
a smaller number; the outputs are defined too. -/
theorem C23_bacs_wires (c : Bacs F) (hv : c.isValid = some true) (p a : List F)
    (hp : p.length = c.primaryInputSize) (ha : a.length = c.auxiliaryInputSize) :
    (∃ w, c.allWires p a = some w ∧ w.length = c.numWires ∧ w.take c.numInputs = p ++ a ∧
      ∀ g ∈ c.gates, g.Holds (envOf w)) ∧
    (∃ o, c.allOutputs p a = some o) ∧
    (∀ i (h : i < c.gates.length), c.gates[i].output = c.numInputs + i + 1 ∧
      (∀ t ∈ c.gates[i].lhs, t.index < c.gates[i].output) ∧
      (∀ t ∈ c.gates[i].rhs, t.index < c.gates[i].output)) := by
  have ht : Bacs.Topo c.numInputs c.gates := by
    simpa using Bacs.topo_of_validFrom _ _ 0 hv
  have hlen : p.length + a.length = c.numInputs := by simp [Bacs.numInputs, hp, ha]
  obtain ⟨r, h1, h2, h3, h4⟩ := Bacs.satisfied_spec c ht p a hlen
  refine ⟨⟨_, h1, ?_, ?_, (h3 r h2).2 rfl⟩, ⟨_, h4⟩, ?_⟩
  · simp [Bacs.numWires, Bacs.numGates, h2]; omega
  · rw [← hlen, ← List.length_append, List.take_left]
  · clear h1 h2 h3 h4 hlen
    generalize c.numInputs = n at *
    generalize c.gates = gs at *
    clear hv
    intro i hi
    induction gs generalizing n i with
    | nil => simp at hi
    | cons g gs ih =>
      obtain ⟨a1, a2, a3, a4⟩ := ht
      cases i with
      | zero =>
        refine ⟨by simpa using a1, ?_, ?_⟩
        · intro t ht'; have := a2 t ht'; simp; omega
        · intro t ht'; have := a3 t ht'; simp; omega
      | succ i =>
        obtain ⟨b1, b2, b3⟩ := ih (n + 1) a4 i (by simpa using hi)
        refine ⟨by simp [b1]; omega, by simpa using b2, by simpa using b3⟩

/-- C23 (BACS depths): on a valid circuit `wire_depths` is defined; the constant wire has depth 0,
inputs have depth 1, and a gate's depth is one more than the maximum `m` of the depths of the wires
it reads (the least upper bound). -/
theorem C23_bacs_depths (c : Bacs F) (hv : c.isValid = some true) :
    ∃ ds, c.wireDepths = some ds ∧ ds.length = c.numWires + 1 ∧ ds.getD 0 0 = 0 ∧
      (∀ i, 1 ≤ i → i ≤ c.numInputs → ds.getD i 0 = 1) ∧
      (∀ g ∈ c.gates, g.output < ds.length ∧ ∃ m, ds.getD g.output 0 = m + 1 ∧ ∀ k, m ≤ k ↔
        (∀ t ∈ g.lhs, ds.getD t.index 0 ≤ k) ∧ (∀ t ∈ g.rhs, ds.getD t.index 0 ≤ k)) ∧
      ∃ d, c.depth = some d ∧ d ∈ ds ∧ ∀ x ∈ ds, x ≤ d := by
  have ht : Bacs.Topo c.numInputs c.gates := by
    simpa using Bacs.topo_of_validFrom _ _ 0 hv
  obtain ⟨ds', h1, h2, h3⟩ := Bacs.depth_spec c.gates (0 :: List.replicate c.numInputs 1)
    c.numInputs (by simp) ht
  refine ⟨_, h1, ?_, by simp, ?_, ?_, ?_⟩
  · simp [Bacs.numWires, Bacs.numGates, h2]
    try omega
  · intro i hi1 hi2
    obtain ⟨j, rfl⟩ : ∃ j, i = j + 1 := ⟨i - 1, by omega⟩
    have : j < c.numInputs := by omega
    simp [List.getElem?_append_left, this]
  · intro g hg
    refine ⟨?_, h3 g hg⟩
    have := Bacs.topo_output_le ht g hg
    simp [h2]; omega
  · have hd : c.depth = (0 :: List.replicate c.numInputs 1 ++ ds').max? := by
      unfold Bacs.depth Bacs.wireDepths; rw [h1]; rfl
    cases hm : (0 :: List.replicate c.numInputs 1 ++ ds').max? with
    | none => simp at hm
    | some d =>
      refine ⟨d, by rw [hd, hm], List.max?_mem hm, ?_⟩
      exact (List.max?_le_iff hm).1 le_rfl

example : exampleBacs.wireDepths = some [0, 1, 1, 2, 3] := by decide

/-- C23 (TBCS wires). -/
theorem C23_tbcs_wires (c : Tbcs) (hv : c.isValid = true) (p a : List Bool)
    (hp : p.length = c.primaryInputSize) (ha : a.length = c.auxiliaryInputSize) :
    (∃ w, c.allWires p a = some w ∧ w.length = c.numInputs + c.gates.length ∧
      w.take c.numInputs = p ++ a ∧ ∀ g ∈ c.gates, g.Holds (bitOf w)) ∧
    (∃ o, c.allOutputs p a = some o) ∧
    (∀ g ∈ c.gates, g.leftWire < g.output ∧ g.rightWire < g.output) := by
  have ht : Tbcs.Topo c.numInputs c.gates := by
    simpa using Tbcs.topo_of_validFrom _ _ 0 hv
  have hlen : p.length + a.length = c.numInputs := by simp [Tbcs.numInputs, hp, ha]
  obtain ⟨r, h1, h2, h3, h4⟩ := Tbcs.satisfied_spec c ht p a hlen
  refine ⟨⟨_, h1, ?_, ?_, (h3 r h2).2 rfl⟩, ⟨_, h4⟩, ?_⟩
  · simp [h2]; omega
  · rw [← hlen, ← List.length_append, List.take_left]
  · intro g hg
    exact (Tbcs.topo_output_le ht g hg).2.2

/-- C23 (finding): TBCS `wire_depths` reads out of bounds on a valid circuit, because the depth
vector has no entry for the constant wire but is indexed by one-based wire numbers. -/
theorem C23_tbcs_depths_out_of_bounds :
    exampleTbcs.isValid = true ∧ exampleTbcs.wireDepths = none := by decide

/-- C23 (finding): even when it stays in bounds it can be wrong: the AND gate on inputs 1 and 2,
followed by a gate reading wire 2 and the constant wire, gets depth 3 for the second gate, although
both wires it reads are inputs or constant (right answer: 2). -/
theorem C23_tbcs_depths_wrong :
    (⟨3, 0, [⟨1, 2, .and, 4, false⟩, ⟨3, 0, .or, 5, false⟩]⟩ : Tbcs).isValid = true ∧
    (⟨3, 0, [⟨1, 2, .and, 4, false⟩, ⟨3, 0, .or, 5, false⟩]⟩ : Tbcs).wireDepths
      = some [1, 1, 1, 2, 3] := by decide

/-- C23 (TBCS depths, what does hold): `wire_depths` is defined exactly when no gate reads the wire
immediately before its own output (that is, wire `num_inputs + i` for gate `i`). -/
theorem C23_tbcs_depths_partial (c : Tbcs) (hv : c.isValid = true) :
    (∃ ds, c.wireDepths = some ds) ↔
      ∀ g ∈ c.gates, g.leftWire + 1 ≠ g.output ∧ g.rightWire + 1 ≠ g.output := by
  have ht : Tbcs.Topo c.numInputs c.gates := by
    simpa using Tbcs.topo_of_validFrom _ _ 0 hv
  unfold Tbcs.wireDepths
  have key : ∀ (gs : List TbcsGate) (n : Nat) (ds : List Nat), ds.length = n → Tbcs.Topo n gs →
      ((∃ ds', gs.foldlM Tbcs.depthStep ds = some ds') ↔
        ∀ g ∈ gs, g.leftWire + 1 ≠ g.output ∧ g.rightWire + 1 ≠ g.output) := by
    intro gs
    induction gs with
    | nil => intro n ds _ _; simp
    | cons g gs ih =>
      intro n ds hn ⟨h1, h2, h3, h4⟩
      rw [List.foldlM_cons]
      by_cases hb : g.leftWire < n ∧ g.rightWire < n
      · have : Tbcs.depthStep ds g =
            some (ds ++ [max (ds[g.leftWire]'(by omega)) (ds[g.rightWire]'(by omega)) + 1]) := by
          simp [Tbcs.depthStep, List.getElem?_eq_getElem (by omega : g.leftWire < ds.length),
            List.getElem?_eq_getElem (by omega : g.rightWire < ds.length)]
        rw [this]
        simp only [Option.bind_eq_bind, Option.bind_some, List.mem_cons, forall_eq_or_imp]
        rw [ih (n + 1) _ (by simp [hn]) h4]
        constructor
        · intro h; exact ⟨⟨by omega, by omega⟩, h⟩
        · exact fun h => h.2
      · have : Tbcs.depthStep ds g = none := by
          unfold Tbcs.depthStep
          by_cases hl : g.leftWire < n
          · have hr : ¬ g.rightWire < n := fun h => hb ⟨hl, h⟩
            rw [List.getElem?_eq_none (by omega : ds.length ≤ g.rightWire)]
            split <;> simp_all
          · rw [List.getElem?_eq_none (by omega : ds.length ≤ g.leftWire)]
        rw [this]
        simp only [Option.bind_eq_bind, Option.bind_none, reduceCtorEq, exists_false, false_iff,
          List.mem_cons, forall_eq_or_imp, not_and]
        intro h; omega
  exact key c.gates c.numInputs _ (by simp) ht

example : (⟨3, 0, [⟨1, 2, .and, 4, false⟩, ⟨3, 0, .or, 5, false⟩]⟩ : Tbcs).isValid = true := by decide

end Crypto3Zk
