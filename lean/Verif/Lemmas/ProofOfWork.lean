import Verif.Model.ProofOfWork
import Verif.Lemmas.Transcript
import Mathlib.Tactic.NormNum
import Mathlib.Data.Nat.Bitwise
import Mathlib.Logic.Function.Iterate

/-!
# Lemmas about the proof of work
-/

namespace Crypto3Zk

theorem add_mod_iterate (q start k : Nat) (hs : start < q) :
    (fun n => (n + 1) % q)^[k] start = (start + k) % q := by
  induction k with
  | zero => simp [Nat.mod_eq_of_lt hs]
  | succ k ih => rw [Function.iterate_succ_apply', ih]; simp [Nat.add_assoc]

/-- Both search loops: the first acceptable element on the orbit of `next`. -/
def orbitSearch (next : Nat → Nat) (ok : Nat → Bool) : Nat → Nat → Option Nat
  | 0, _ => none
  | fuel + 1, n => if ok n then some n else orbitSearch next ok fuel (next n)

theorem orbitSearch_eq_some (next : Nat → Nat) (ok : Nat → Bool) (fuel n m : Nat) :
    orbitSearch next ok fuel n = some m ↔
      ∃ k < fuel, m = next^[k] n ∧ ok m = true ∧ ∀ j < k, ok (next^[j] n) = false := by
  induction fuel generalizing n with
  | zero => simp [orbitSearch]
  | succ fuel ih =>
    rw [orbitSearch]
    by_cases h : ok n = true
    · rw [if_pos h]
      constructor
      · intro e
        cases e
        exact ⟨0, by omega, rfl, h, by simp⟩
      · rintro ⟨k, _, hm, _, hj⟩
        cases k with
        | zero => rw [hm]; rfl
        | succ k => have := hj 0 (by omega); simp [h] at this
    · rw [if_neg h, ih]
      constructor
      · rintro ⟨k, hk, hm, hok, hj⟩
        refine ⟨k + 1, by omega, hm, hok, ?_⟩
        intro j hjk
        cases j with
        | zero => simpa using h
        | succ j => exact hj j (by omega)
      · rintro ⟨k, hk, hm, hok, hj⟩
        cases k with
        | zero => rw [hm] at hok; exact absurd hok h
        | succ k => exact ⟨k, by omega, hm, hok, fun j hjk => hj (j + 1) (by omega)⟩

theorem orbitSearch_isSome_mod (q start : Nat) (hs : start < q) (ok : Nat → Bool) (n : Nat)
    (hn : n < q) (hok : ok n = true) (fuel : Nat) (hf : q ≤ fuel) :
    (orbitSearch (fun n => (n + 1) % q) ok fuel start).isSome := by
  have hex : ∃ k, ok ((fun n => (n + 1) % q)^[k] start) = true ∧ k < q := by
    refine ⟨(n + q - start) % q, ?_, Nat.mod_lt _ (by omega)⟩
    rw [add_mod_iterate q start _ hs, Nat.add_mod_mod, show start + (n + q - start) = n + q by omega,
      Nat.add_mod_right, Nat.mod_eq_of_lt hn]
    exact hok
  have hex' : ∃ k, ok ((fun n => (n + 1) % q)^[k] start) = true := ⟨_, hex.choose_spec.1⟩
  have hlt : Nat.find hex' < q := lt_of_le_of_lt (Nat.find_le hex.choose_spec.1) hex.choose_spec.2
  have := (orbitSearch_eq_some (fun n => (n + 1) % q) ok fuel start
    ((fun n => (n + 1) % q)^[Nat.find hex'] start)).2
    ⟨Nat.find hex', by omega, rfl, Nat.find_spec hex', fun j hj => by
      simpa using Nat.find_min hex' hj⟩
  rw [this]; rfl

theorem powSearch_eq {S : Type} (T : IntTranscript S) (bits mask : Nat) (t : S) (fuel n : Nat) :
    powSearch T bits mask t fuel n =
      orbitSearch (fun n => (n + 1) % 2 ^ bits) (fun n => (powVerify T mask t n).1) fuel n := by
  induction fuel generalizing n with
  | zero => rfl
  | succ fuel ih => simp only [powSearch, orbitSearch, ih, powVerify, decide_eq_true_eq]

theorem fieldPowSearch_eq {S : Type} (T : FieldTranscript S) (p mask : Nat) (t : S) (fuel n : Nat) :
    fieldPowSearch T p mask t fuel n =
      orbitSearch (fun n => (n + 1) % p)
        (fun n => decide ((T.challenge (T.absorb t n)).2 &&& mask = 0)) fuel n := by
  induction fuel generalizing n with
  | zero => rfl
  | succ fuel ih => simp only [fieldPowSearch, orbitSearch, ih, decide_eq_true_eq]

theorem land_eq_zero_iff (a b : Nat) :
    a &&& b = 0 ↔ ∀ i, ¬ (a.testBit i = true ∧ b.testBit i = true) := by
  constructor
  · intro h i ⟨h1, h2⟩
    have := congrArg (Nat.testBit · i) h
    simp [Nat.testBit_and, h1, h2] at this
  · intro h
    apply Nat.eq_of_testBit_eq
    intro i
    have := h i
    simp only [Nat.testBit_and, Nat.zero_testBit]
    cases h1 : a.testBit i <;> cases h2 : b.testBit i <;> simp_all

theorem nonceBytes_eq (n : Nat) : nonceBytes n =
    [UInt8.ofNat (n / 2 ^ 24 % 256), UInt8.ofNat (n / 2 ^ 16 % 256), UInt8.ofNat (n / 2 ^ 8 % 256),
      UInt8.ofNat (n % 256)] := by
  have h : ∀ m : Nat, m &&& 0xFF = m % 256 := fun m => Nat.and_two_pow_sub_one_eq_mod m 8
  unfold nonceBytes
  rw [Nat.shiftRight_and_distrib, Nat.shiftRight_and_distrib, Nat.shiftRight_and_distrib]
  simp only [Nat.reduceShiftRight, h, Nat.shiftRight_eq_div_pow]

theorem packBE_nonceBytes (n : Nat) : packBE (nonceBytes n) = n % 2 ^ 32 := by
  rw [nonceBytes_eq]
  simp only [packBE, List.foldl_cons, List.foldl_nil, UInt8.toNat_ofNat']
  omega

end Crypto3Zk
