import Verif.Lemmas.Alphas
import Mathlib.Algebra.Field.Rat

/-!
# C60: alpha powers handed to different constraint families never overlap

A history is a list of registrations `(type, number of powers)` on a fresh object.
-/

set_option linter.unusedSectionVars false

namespace Crypto3Zk

variable {K : Type} [DecidableEq K] {F : Type} [Field F]

/-- **C60** (ranges): after any history of registrations, a type has the range `(start, number)`
exactly when its first registration asked for `number` powers and `start` powers had been
registered before it. -/
theorem C60_range (regs : List (K × Nat)) (arg : K) (start number : Nat) :
    (registerAll regs : Alphas K F).find arg = some (start, number) ↔
      ∃ before after, regs = before ++ (arg, number) :: after ∧
        (∀ r ∈ before, r.1 ≠ arg) ∧ start = (before.map (·.2)).sum := by
  induction regs using List.reverseRecOn with
  | nil => simp [registerAll, Alphas.find, Alphas.fresh]
  | append_singleton regs r ih =>
    have hex : (registerAll regs : Alphas K F).find r.1 = none ↔ ∀ x ∈ regs, x.1 ≠ r.1 := by
      clear ih
      induction regs using List.reverseRecOn with
      | nil => simp [registerAll, Alphas.find, Alphas.fresh]
      | append_singleton regs x ih2 =>
        rw [registerAll_append, Alphas.find_register]
        by_cases hx : r.1 = x.1
        · split_ifs with h
          · constructor
            · intro h2; cases h2
            · intro h2; exact absurd hx.symm (h2 x (by simp))
          · have : (registerAll regs : Alphas K F).find r.1 ≠ none := by
              rw [hx]; exact fun h2 => h ⟨hx, h2⟩
            constructor
            · intro h2; exact absurd h2 this
            · intro h2; exact absurd hx.symm (h2 x (by simp))
        · rw [if_neg (by tauto), ih2]
          constructor
          · intro h y hy
            rcases List.mem_append.1 hy with hy | hy
            · exact h y hy
            · rw [List.mem_singleton.1 hy]; exact fun h => hx h.symm
          · intro h y hy; exact h y (List.mem_append_left _ hy)
    rw [registerAll_append, Alphas.find_register]
    by_cases hr : arg = r.1 ∧ (registerAll regs : Alphas K F).find r.1 = none
    · rw [if_pos hr, registerAll_nextPower]
      have hno := hex.1 hr.2
      constructor
      · intro h
        simp only [Option.some.injEq, Prod.mk.injEq] at h
        refine ⟨regs, [], ?_, ?_, h.1.symm⟩
        · rw [hr.1, ← h.2]
        · rw [hr.1]; exact hno
      · rintro ⟨before, after, heq, hb, hs⟩
        rcases List.eq_nil_or_concat after with rfl | ⟨l, x, rfl⟩
        · have := List.append_inj' heq rfl
          rw [hs, ← this.1]
          have h2 := (List.cons.inj this.2).1
          rw [h2]
        · exfalso
          have h3 : before ++ (arg, number) :: (l ++ [x]) = (before ++ (arg, number) :: l) ++ [x] := by
            simp
          rw [List.concat_eq_append, h3] at heq
          have := (List.append_inj' heq rfl).1
          exact hno (arg, number) (by rw [this]; simp) hr.1
    · rw [if_neg hr, ih]
      constructor
      · rintro ⟨before, after, heq, hb, hs⟩
        exact ⟨before, after ++ [r], by rw [heq]; simp, hb, hs⟩
      · rintro ⟨before, after, heq, hb, hs⟩
        rcases List.eq_nil_or_concat after with rfl | ⟨l, x, rfl⟩
        · exfalso
          have := List.append_inj' heq rfl
          have h2 := (List.cons.inj this.2).1
          apply hr
          refine ⟨by rw [h2], hex.2 ?_⟩
          rw [this.1, h2]
          exact hb
        · have h3 : before ++ (arg, number) :: (l ++ [x]) = (before ++ (arg, number) :: l) ++ [x] := by
            simp
          rw [List.concat_eq_append, h3] at heq
          exact ⟨before, l, (List.append_inj' heq rfl).1, hb, hs⟩

/-- **C60** (disjoint): the exponent ranges of two different types have no exponent in common, and
every range lies below the total number of registered powers. -/
theorem C60_disjoint (regs : List (K × Nat)) (a b : K) (hab : a ≠ b) (sa na sb nb : Nat)
    (ha : (registerAll regs : Alphas K F).find a = some (sa, na))
    (hb : (registerAll regs : Alphas K F).find b = some (sb, nb)) :
    (∀ e, ¬ ((sa ≤ e ∧ e < sa + na) ∧ (sb ≤ e ∧ e < sb + nb))) ∧
      sa + na ≤ (regs.map (·.2)).sum ∧ sb + nb ≤ (regs.map (·.2)).sum := by
  obtain ⟨ba, ta, e1, ha1, hsa⟩ := (C60_range regs a sa na).1 ha
  obtain ⟨bb, tb, e2, hb1, hsb⟩ := (C60_range regs b sb nb).1 hb
  have hA : sa + na ≤ (regs.map (·.2)).sum := by rw [e1, hsa]; simp
  have hB : sb + nb ≤ (regs.map (·.2)).sum := by rw [e2, hsb]; simp
  refine ⟨?_, hA, hB⟩
  have heq := e1.symm.trans e2
  rcases List.append_eq_append_iff.1 heq with ⟨m, h1, h2⟩ | ⟨m, h1, h2⟩
  · cases m with
    | nil => exact absurd (congrArg Prod.fst (List.cons.inj h2).1) hab
    | cons x m =>
      have := (List.cons.inj h2).1
      subst this
      have : sa + na ≤ sb := by rw [hsb, hsa, h1]; simp
      rintro e ⟨⟨_, h3⟩, h4, _⟩
      omega
  · cases m with
    | nil => exact absurd (congrArg Prod.fst (List.cons.inj h2).1).symm hab
    | cons x m =>
      have := (List.cons.inj h2).1
      subst this
      have : sb + nb ≤ sa := by rw [hsb, hsa, h1]; simp
      rintro e ⟨⟨h3, _⟩, _, h4⟩
      omega

/-- **C60** (no exponent is wasted): when every type is registered once, every exponent below the
total belongs to the range of some type. -/
theorem C60_contiguous (regs : List (K × Nat)) (hd : (regs.map (·.1)).Nodup) (e : Nat)
    (he : e < (regs.map (·.2)).sum) :
    ∃ arg start number, (registerAll regs : Alphas K F).find arg = some (start, number) ∧
      start ≤ e ∧ e < start + number := by
  have key : ∃ before r after, regs = before ++ r :: after ∧ (before.map (·.2)).sum ≤ e ∧
      e < (before.map (·.2)).sum + r.2 := by
    clear hd
    induction regs using List.reverseRecOn with
    | nil => simp at he
    | append_singleton regs r ih =>
      by_cases h : e < (regs.map (·.2)).sum
      · obtain ⟨b, x, t, h1, h2, h3⟩ := ih h
        exact ⟨b, x, t ++ [r], by rw [h1]; simp, h2, h3⟩
      · simp at he
        exact ⟨regs, r, [], rfl, by omega, by omega⟩
  obtain ⟨b, r, t, h1, h2, h3⟩ := key
  refine ⟨r.1, (b.map (·.2)).sum, r.2, (C60_range regs _ _ _).2 ⟨b, t, h1, ?_, rfl⟩, h2, h3⟩
  intro x hx hxr
  rw [h1, List.map_append, List.map_cons, List.nodup_append] at hd
  exact hd.2.2 x.1 (List.mem_map_of_mem hx) r.1 (by simp) hxr

/-- **C60** (the powers): after instantiating with a challenge, asking for `num` powers of a type
with range `(start, number)` is answered exactly when `num ≤ number`, and the answer is
`alpha^start, alpha^(start+1), ...`. A type that was never registered gets no answer. -/
theorem C60_powers (regs : List (K × Nat)) (alpha : F) (arg : K) (num : Nat) :
    ((registerAll regs).instantiate alpha).getAlphas arg num =
      match (registerAll regs : Alphas K F).find arg with
      | none => none
      | some (start, number) =>
        if num ≤ number then some ((List.range num).map fun i => alpha ^ (start + i)) else none := by
  have hf : ((registerAll regs : Alphas K F).instantiate alpha).find arg =
      (registerAll regs : Alphas K F).find arg := rfl
  unfold Alphas.getAlphas
  rw [hf]
  cases h : (registerAll regs : Alphas K F).find arg with
  | none => rfl
  | some r =>
    obtain ⟨s, m⟩ := r
    simp only
    split_ifs with h1 h2
    · rw [Alphas.instantiate_alphas]
      congr 1
      rw [Alphas.instantiate_alphas] at h2
      simp only [List.length_map, List.length_range] at h2
      apply List.ext_getElem
      · simp; omega
      · intro i _ _; simp
    · exfalso
      obtain ⟨b, t, e, _, hs⟩ := (C60_range regs arg s m).1 h
      apply h2
      rw [Alphas.instantiate_alphas, registerAll_nextPower, e, hs]
      simp
      omega
    · rfl

/-- **C60** (re-registration): registering a type a second time does not move its range; it only
skips exponents. -/
theorem C60_reregister (regs : List (K × Nat)) (arg : K) (r : Nat × Nat) (power : Nat)
    (h : (registerAll regs : Alphas K F).find arg = some r) (k : K) :
    (registerAll (regs ++ [(arg, power)]) : Alphas K F).find k =
        (registerAll regs : Alphas K F).find k ∧
      (registerAll (regs ++ [(arg, power)]) : Alphas K F).nextPower =
        (registerAll regs : Alphas K F).nextPower + power := by
  rw [registerAll_append, Alphas.find_register]
  exact ⟨if_neg (by simp [h]), rfl⟩

/-- Three families with 2, 3 and 1 powers. -/
example :
    (registerAll [(10, 2), (20, 3), (10, 4), (30, 1)] : Alphas Nat ℚ).find 20 = some (2, 3) ∧
    (registerAll [(10, 2), (20, 3), (10, 4), (30, 1)] : Alphas Nat ℚ).find 30 = some (9, 1) ∧
    ((registerAll [(10, 2), (20, 3), (30, 1)] : Alphas Nat ℚ).instantiate 3).getAlphas 20 2 =
      some [9, 27] ∧
    ((registerAll [(10, 2), (20, 3), (30, 1)] : Alphas Nat ℚ).instantiate 3).getAlphas 20 4 = none := by
  refine ⟨by decide +kernel, by decide +kernel, by decide +kernel, by decide +kernel⟩

end Crypto3Zk
