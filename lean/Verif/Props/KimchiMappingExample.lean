import Verif.Props.KimchiMapping
import Mathlib.NumberTheory.LucasPrimality
import Mathlib.Tactic.ReduceModChar

/-!
# Examples for C78, C79
-/

namespace Crypto3Zk

/-- `3 · 2^189 + 1`, a prime with cube roots of unity -/
abbrev exPrime : Nat := 2353913150770005286438421033702874906038383291674012942337

theorem exPow1 : (10 : ZMod 2353913150770005286438421033702874906038383291674012942337) ^
    2353913150770005286438421033702874906038383291674012942336 = 1 := by reduce_mod_char

theorem exPow2 : (10 : ZMod 2353913150770005286438421033702874906038383291674012942337) ^
    1176956575385002643219210516851437453019191645837006471168 = -1 := by reduce_mod_char

theorem exPow3 : (10 : ZMod 2353913150770005286438421033702874906038383291674012942337) ^
    784637716923335095479473677900958302012794430558004314112 =
      1050769674290637727069835596912470316057652454543996332259 := by reduce_mod_char

theorem exPrime_ne (c : Nat) (hc : c < exPrime) (h1 : c ≠ 1) : (c : ZMod exPrime) ≠ 1 := by
  intro h2
  have := (ZMod.natCast_eq_natCast_iff' c 1 exPrime).mp (by rw [h2]; norm_num)
  rw [Nat.mod_eq_of_lt hc] at this
  apply h1
  rw [this]
  norm_num [exPrime]

theorem exPrime_prime : exPrime.Prime := by
  refine lucas_primality exPrime 10 exPow1 ?_
  intro q hq hd
  have hq' : q = 2 ∨ q = 3 := by
    have : q ∣ 3 * 2 ^ 189 := by
      rw [show 3 * 2 ^ 189 = exPrime - 1 by norm_num [exPrime]]
      exact hd
    rcases (Nat.Prime.dvd_mul hq).mp this with h | h
    · exact Or.inr ((Nat.prime_dvd_prime_iff_eq hq Nat.prime_three).mp h)
    · exact Or.inl ((Nat.prime_dvd_prime_iff_eq hq Nat.prime_two).mp (hq.dvd_of_dvd_pow h))
  rcases hq' with rfl | rfl
  · have e : (exPrime - 1) / 2 = 1176956575385002643219210516851437453019191645837006471168 := by
      norm_num [exPrime]
    rw [e, exPow2]
    have := exPrime_ne (exPrime - 1) (by norm_num [exPrime]) (by norm_num [exPrime])
    rwa [Nat.cast_sub (by norm_num [exPrime]), ZMod.natCast_self, zero_sub, Nat.cast_one] at this
  · have e : (exPrime - 1) / 3 = 784637716923335095479473677900958302012794430558004314112 := by
      norm_num [exPrime]
    rw [e, exPow3]
    have := exPrime_ne 1050769674290637727069835596912470316057652454543996332259 (by norm_num [exPrime])
      (by norm_num)
    exact_mod_cast this

instance : Fact exPrime.Prime := ⟨exPrime_prime⟩

/-- the hypotheses of C78 are met -/
example (x y : Nat) (hx : x < 2 ^ 128) (hy : y < 2 ^ 128)
    (h : scalarToField x (1050769674290637727069835596912470316057652454543996332259 : ZMod exPrime) =
      scalarToField y 1050769674290637727069835596912470316057652454543996332259) : x = y := by
  refine C78_challenges_injective exPrime (by norm_num [exPrime]) _ ?_ x y hx hy h
  have : ((1050769674290637727069835596912470316057652454543996332259 ^ 2 +
      1050769674290637727069835596912470316057652454543996332259 + 1 : Nat) : ZMod exPrime) = 0 := by
    rw [ZMod.natCast_eq_zero_iff]
    norm_num [exPrime]
  exact_mod_cast this

instance exFactSeven : Fact (Nat.Prime 7) := ⟨by norm_num⟩

/-- a square root in the field of seven elements -/
def exSqrt (x : ZMod 7) : ZMod 7 := if x = 1 then 1 else if x = 2 then 4 else if x = 4 then 5 else 0

theorem exSqrt_isSqrt : IsSqrt exSqrt := by
  rintro x ⟨y, rfl⟩
  revert y
  decide +kernel

/-- the hypotheses of C79 are met: the curve `y² = x³ + 3` over seven elements -/
example : ∃ m, groupMapInit exSqrt 0 3 = some m ∧
    ∀ t : ZMod 7, t ≠ 0 → t ^ 2 + m.fu ≠ 0 →
      ∃ x y, m.toGroup exSqrt t = some (some (x, y)) ∧ y ^ 2 = x ^ 3 + 3 := by
  obtain ⟨m, hm, -⟩ := C79_constructor exSqrt 0 3 (by decide) (by decide)
  exact ⟨m, hm, fun t ht htf => C79_on_curve_partial exSqrt exSqrt_isSqrt 3 (by decide) (by decide)
    ⟨2, by decide⟩ m hm t ht htf⟩

/-- C79 needs curves without linear term: on `y² = x³ + 2 x + 5` none of the three candidates is on the
curve, and the default-constructed point is returned. -/
theorem C79_linear_term : ∃ m, groupMapInit exSqrt 2 5 = some m ∧ (6 : ZMod 7) ^ 2 + m.fu ≠ 0 ∧
    m.toGroup exSqrt 6 = some none :=
  ⟨⟨2, 5, 1, 1, 2, 5, 5⟩, by decide +kernel, by decide +kernel, by decide +kernel⟩

end Crypto3Zk
