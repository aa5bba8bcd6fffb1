import Verif.Spec.KimchiSponge
import Verif.Props.KimchiMapping
import Mathlib.Algebra.Field.ZMod
import Mathlib.Tactic.LinearCombination

/-!
# C80: the transcript over the base field
-/

namespace Crypto3Zk

set_option linter.unusedSectionVars false

variable {H : Type} {q r : Nat}

theorem squeezeLimbs_two (ops : SpongeOps (ZMod q) H) (h : H) :
    squeezeLimbs ops 2 ⟨h, []⟩ = (unpackLimbs (ops.squeeze h).1.val, ⟨(ops.squeeze h).2, []⟩) := by
  rw [squeezeLimbs, if_neg (by simp)]
  dsimp only
  rw [squeezeLimbs, if_pos (by simp [unpackLimbs])]
  simp [unpackLimbs]

theorem packLimbs_two (limbs n : Nat) (hl : 2 ≤ limbs) : packLimbs limbs (unpackLimbs n) = n % 2 ^ 128 := by
  rw [packLimbs, List.take_of_length_le (by simpa [unpackLimbs] using hl)]
  simp only [unpackLimbs, List.foldr_cons, List.foldr_nil]
  omega

theorem fqAbsorbG_nil (ops : SpongeOps (ZMod q) H) (h : H) (g : ZMod q × ZMod q) :
    fqAbsorbG ops ⟨h, []⟩ g = ⟨[g.1, g.2].foldl ops.absorb h, []⟩ := by
  simp [fqAbsorbG]

theorem fqAbsorbG_any (ops : SpongeOps (ZMod q) H) (s : KSponge H) (g : ZMod q × ZMod q) :
    fqAbsorbG ops s g = ⟨[g.1, g.2].foldl ops.absorb s.sponge, []⟩ := by
  rw [fqAbsorbG]
  split <;> simp_all

theorem fqAbsorbGs_eq (ops : SpongeOps (ZMod q) H) (s : KSponge H) (gs : List (ZMod q × ZMod q)) :
    fqAbsorbGs ops s gs = ⟨(gs.flatMap fun g => [g.1, g.2]).foldl ops.absorb s.sponge, []⟩ := by
  rw [fqAbsorbGs]
  obtain ⟨h, l⟩ := s
  dsimp only
  clear l
  induction gs generalizing h with
  | nil => rfl
  | cons g gs ih =>
    rw [List.foldl_cons, fqAbsorbG_nil, ih, List.flatMap_cons, List.foldl_append]

theorem fqAbsorbFr_nil (ops : SpongeOps (ZMod q) H) (h : H) (f : ZMod r) :
    fqAbsorbFr ops ⟨h, []⟩ f = ⟨(frElements q r f).foldl ops.absorb h, []⟩ := by
  simp [fqAbsorbFr]

theorem fqAbsorbFrs_eq (ops : SpongeOps (ZMod q) H) (s : KSponge H) (fs : List (ZMod r)) :
    fqAbsorbFrs ops s fs = ⟨(fs.flatMap (frElements q r)).foldl ops.absorb s.sponge, []⟩ := by
  rw [fqAbsorbFrs]
  obtain ⟨h, l⟩ := s
  dsimp only
  clear l
  induction fs generalizing h with
  | nil => rfl
  | cons g gs ih =>
    rw [List.foldl_cons, fqAbsorbFr_nil, ih, List.flatMap_cons, List.foldl_append]

/-- C80: for every sequence of absorptions, challenges and digests, the transcript returns what the
permutation returns: every challenge is the lowest 128 bits of a fresh element of it, squeezed after all
that was absorbed before. -/
theorem C80_transcript_partial (ops : SpongeOps (ZMod q) H) (limbs : Nat) (hl : 2 ≤ limbs) (hr : 2 ^ 128 ≤ r)
    (h : H) (calls : List (FqCall q r)) :
    runFqCalls ops limbs ⟨h, []⟩ calls =
      ((idealFqCalls ops h calls).1, ⟨(idealFqCalls ops h calls).2, []⟩) := by
  induction calls generalizing h with
  | nil => rfl
  | cons c cs ih =>
    have hstep : runFqCall ops limbs ⟨h, []⟩ c = ((idealFqCall ops h c).1, ⟨(idealFqCall ops h c).2, []⟩) := by
      haveI : NeZero r := ⟨by omega⟩
      cases c with
      | absorbG g => rw [runFqCall, fqAbsorbG_nil, idealFqCall]
      | absorbGs gs => rw [runFqCall, fqAbsorbGs_eq, idealFqCall]
      | absorbFr f => rw [runFqCall, fqAbsorbFr_nil, idealFqCall]
      | absorbFrs fs => rw [runFqCall, fqAbsorbFrs_eq, idealFqCall]
      | challenge =>
        rw [runFqCall, idealFqCall, fqChallenge, fqSqueeze, squeezeLimbs_two]
        dsimp only
        rw [packLimbs_two limbs _ hl, ZMod.val_natCast, Nat.mod_eq_of_lt (by omega)]
      | challengeFq => rw [runFqCall, idealFqCall, fqSqueezeField]
      | digest =>
        rw [runFqCall, idealFqCall, fqDigest, fqSqueezeField]
        dsimp only
        rw [ZMod.val_natCast]
    rw [runFqCalls, hstep, idealFqCalls]
    dsimp only
    rw [ih]

/-- C80: what is absorbed for a scalar determines the scalar, in both cases of the comparison of the
moduli. -/
theorem C80_scalars_injective [NeZero r] (hq : r ≤ 2 * q) (hq1 : 1 < q) (f g : ZMod r)
    (h : frElements q r f = frElements q r g) : f = g := by
  apply ZMod.val_injective
  have hf := f.val_lt
  have hg := g.val_lt
  have key : ∀ a b : Nat, a < q → b < q → (a : ZMod q) = (b : ZMod q) → a = b := by
    intro a b ha hb hab
    have := (ZMod.natCast_eq_natCast_iff' a b q).mp hab
    rwa [Nat.mod_eq_of_lt ha, Nat.mod_eq_of_lt hb] at this
  rw [frElements, frElements] at h
  split at h
  · exact key _ _ (by omega) (by omega) (List.cons.inj h).1
  · obtain ⟨h1, h2⟩ := List.cons.inj h
    have e1 := key _ _ (by omega) (by omega) h1
    have e2 := key _ _ (by omega) (by omega) (List.cons.inj h2).1
    omega

/-- C80: the shift that is applied to a scalar before it is absorbed loses nothing. -/
theorem C80_shift_bijective (q r bits : Nat) [Fact r.Prime] (hr : r ≠ 2) :
    Function.Bijective (shiftScalar q r bits) := by
  have h2 : (2 : ZMod r) ≠ 0 := by
    intro h
    have : ((2 : Nat) : ZMod r) = 0 := by exact_mod_cast h
    rw [ZMod.natCast_eq_zero_iff] at this
    exact hr ((Nat.prime_dvd_prime_iff_eq Fact.out Nat.prime_two).mp this)
  constructor
  · intro x y h
    rw [shiftScalar, shiftScalar] at h
    split at h
    · rw [div_left_inj' h2] at h
      linear_combination h
    · linear_combination h
  · intro y
    by_cases hc : r < q
    · refine ⟨2 * y + (2 ^ bits + 1), ?_⟩
      rw [shiftScalar, if_pos hc]
      field_simp
      ring
    · refine ⟨y + 2 ^ bits, ?_⟩
      rw [shiftScalar, if_neg hc]
      ring

/-- C80: different 128-bit squeezes give different challenges of the protocol. -/
theorem C80_challenge_injective [Fact r.Prime] (hr : 2 ^ 132 < r) (endo : ZMod r)
    (he : endo ^ 2 + endo + 1 = 0) (ops ops' : SpongeOps (ZMod q) H) (limbs : Nat) (hl : 2 ≤ limbs) (h h' : H)
    (heq : (fqSqueezeChallenge ops limbs endo ⟨h, []⟩).1 = (fqSqueezeChallenge ops' limbs endo ⟨h', []⟩).1) :
    (ops.squeeze h).1.val % 2 ^ 128 = (ops'.squeeze h').1.val % 2 ^ 128 := by
  rw [fqSqueezeChallenge, fqSqueezeChallenge, fqChallenge, fqChallenge, fqSqueeze, fqSqueeze,
    squeezeLimbs_two, squeezeLimbs_two] at heq
  dsimp only at heq
  have hm : ∀ n : Nat, n % 2 ^ 128 % r = n % 2 ^ 128 := fun n => Nat.mod_eq_of_lt (by omega)
  rw [packLimbs_two limbs _ hl, packLimbs_two limbs _ hl, ZMod.val_natCast, ZMod.val_natCast, hm, hm] at heq
  exact C78_challenges_injective r hr endo he _ _ (by omega) (by omega) heq

/-- C80 fails for single limbs: absorbing a scalar does not discard limbs that were squeezed before, so
the next limb does not depend on it. -/
theorem C80_stale_limb (ops : SpongeOps (ZMod q) H) (limbs : Nat) (h : H) (f g : ZMod r) :
    let s := (squeezeLimbs ops 1 ⟨h, []⟩).2
    (fqSqueeze ops limbs 1 (fqAbsorbFr ops s f) : ZMod r × KSponge H).1 =
      (fqSqueeze ops limbs 1 (fqAbsorbFr ops s g) : ZMod r × KSponge H).1 := by
  have e : squeezeLimbs ops 1 ⟨h, []⟩ = ([(ops.squeeze h).1.val % 2 ^ 64],
      ⟨(ops.squeeze h).2, [(ops.squeeze h).1.val / 2 ^ 64 % 2 ^ 64]⟩) := by
    rw [squeezeLimbs, if_neg (by simp)]
    dsimp only
    rw [squeezeLimbs, if_pos (by simp [unpackLimbs])]
    simp [unpackLimbs]
  dsimp only
  rw [e]
  dsimp only
  have e1 : ∀ (h' : H) (x : Nat), squeezeLimbs ops 1 ⟨h', [x]⟩ = ([x], ⟨h', []⟩) := fun h' x => by
    rw [squeezeLimbs, if_pos (by simp)]
    simp
  rw [fqSqueeze, fqSqueeze, fqAbsorbFr, fqAbsorbFr, if_neg (by simp), e1, e1]

/-- C80: the other absorbing calls discard such limbs. -/
theorem C80_absorb_discards (ops : SpongeOps (ZMod q) H) (s : KSponge H) (g : ZMod q × ZMod q)
    (gs : List (ZMod q × ZMod q)) (fs : List (ZMod r)) :
    (fqAbsorbG ops s g).last = [] ∧ (fqAbsorbGs ops s gs).last = [] ∧ (fqAbsorbFrs ops s fs).last = [] := by
  rw [fqAbsorbG_any, fqAbsorbGs_eq, fqAbsorbFrs_eq]
  exact ⟨rfl, rfl, rfl⟩

/-- C80: whatever limbs are left over: after any call but a challenge and the absorption of a single scalar,
the transcript returns what the permutation returns. -/
theorem C80_leftover_limbs_discarded (ops : SpongeOps (ZMod q) H) (limbs : Nat) (hl : 2 ≤ limbs)
    (hr : 2 ^ 128 ≤ r) (s : KSponge H) (c : FqCall q r) (hc : c ≠ .challenge) (hf : ∀ f, c ≠ .absorbFr f)
    (calls : List (FqCall q r)) :
    runFqCalls ops limbs s (c :: calls) =
      ((idealFqCalls ops s.sponge (c :: calls)).1, ⟨(idealFqCalls ops s.sponge (c :: calls)).2, []⟩) := by
  have hstep : runFqCall ops limbs s c =
      ((idealFqCall ops s.sponge c).1, ⟨(idealFqCall ops s.sponge c).2, []⟩) := by
    cases c with
    | absorbG g => rw [runFqCall, fqAbsorbG_any, idealFqCall]
    | absorbGs gs => rw [runFqCall, fqAbsorbGs_eq, idealFqCall]
    | absorbFr f => exact absurd rfl (hf f)
    | absorbFrs fs => rw [runFqCall, fqAbsorbFrs_eq, idealFqCall]
    | challenge => exact absurd rfl hc
    | challengeFq => rw [runFqCall, idealFqCall, fqSqueezeField]
    | digest =>
      rw [runFqCall, idealFqCall, fqDigest, fqSqueezeField]
      dsimp only
      rw [ZMod.val_natCast]
  rw [runFqCalls, hstep, idealFqCalls]
  dsimp only
  rw [C80_transcript_partial ops limbs hl hr]

/-- C80: the sponge over the scalar field: a challenge after any state that was absorbed into -/
theorem C80_fr_challenge (ops : SpongeOps (ZMod r) H) (limbs : Nat) (hl : 2 ≤ limbs) (hr : 2 ^ 128 ≤ r)
    (s : KSponge H) (x : ZMod r) :
    ∃ c : ZMod r, frChallenge ops limbs (frAbsorb ops s x) =
      (c, ⟨(ops.squeeze (ops.absorb s.sponge x)).2, []⟩) ∧
      c.val = (ops.squeeze (ops.absorb s.sponge x)).1.val % 2 ^ 128 := by
  have : NeZero r := ⟨by omega⟩
  refine ⟨_, by rw [frChallenge, frSqueeze, frAbsorb, squeezeLimbs_two], ?_⟩
  dsimp only
  rw [packLimbs_two limbs _ hl, ZMod.val_natCast, Nat.mod_eq_of_lt (by omega)]

/-! ## Example -/

/-- a toy permutation over a field of 7 elements: the state is the sum of what was absorbed -/
def exOps : SpongeOps (ZMod 7) (ZMod 7) := ⟨fun h x => 3 * h + x, fun h => (h, h + 1)⟩

/-- the hypotheses of C80 are met, and the calls return something that depends on what was absorbed -/
example : (runFqCalls exOps 4 ⟨0, []⟩ [.absorbG (1, 2), .challenge, .absorbFr (6 : ZMod (2 ^ 128)), .challenge]).1 =
    [5, 0] := by
  rw [C80_transcript_partial exOps 4 (by norm_num) (le_refl _)]
  decide +kernel

example : frElements 7 11 (9 : ZMod 11) = [4, 1] ∧ frElements 13 11 (9 : ZMod 11) = [9] := by
  decide +kernel

end Crypto3Zk
