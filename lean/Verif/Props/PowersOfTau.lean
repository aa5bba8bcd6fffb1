import Verif.Lemmas.PowersOfTau
import Verif.Props.Groth16
import Mathlib.Data.ZMod.Basic
import Mathlib.Algebra.Field.ZMod
import Mathlib.Tactic.NormNum.Prime

/-!
# C55: the powers-of-tau ceremony

`P` is the pairing, `K` the hash functions of the proofs of knowledge, `transcript` the hash of a serialised
accumulator and `len` the length of the ceremony. All randomness is universally quantified.
-/

set_option linter.unusedSectionVars false

namespace Crypto3Zk

open Polynomial

variable {F G1 G2 GT : Type} [Field F] [AddCommGroup G1] [Module F G1] [AddCommGroup G2] [Module F G2]
  [AddCommGroup GT] [Module F GT]

/-- **C55** (contributions compose): after any sequence of contributions, with any secrets, the accumulator is
the one of the products of the secrets. -/
theorem C55_contributions (P : Pairing F G1 G2 GT) (len : Nat) (hlen : 1 ≤ len) (ks : List (TauKey F)) :
    ks.foldlM (TauAccumulator.transform len) (TauAccumulator.new P len) =
      some (tauStructure P len (keyProduct ks)) := by
  have key : ∀ (ks : List (TauKey F)) (k : TauKey F),
      ks.foldlM (TauAccumulator.transform len) (tauStructure P len k) =
        some (tauStructure P len ⟨k.tau * (keyProduct ks).tau, k.alpha * (keyProduct ks).alpha,
          k.beta * (keyProduct ks).beta⟩) := by
    intro ks
    induction ks with
    | nil => intro k; simp [keyProduct]
    | cons a ks ih =>
      intro k
      rw [List.foldlM_cons, transform_tauStructure P len hlen]
      simp only [Option.bind_eq_bind, Option.bind_some]
      rw [ih]
      simp [keyProduct, mul_assoc]
  rw [new_eq, key]
  simp

/-- The order of the contributors does not matter. -/
theorem C55_contributions_order (P : Pairing F G1 G2 GT) (len : Nat) (hlen : 1 ≤ len) (ks ks' : List (TauKey F))
    (h : ks.Perm ks') :
    ks.foldlM (TauAccumulator.transform len) (TauAccumulator.new P len) =
      ks'.foldlM (TauAccumulator.transform len) (TauAccumulator.new P len) := by
  rw [C55_contributions P len hlen, C55_contributions P len hlen, keyProduct, keyProduct,
    (h.map _).prod_eq, (h.map TauKey.alpha).prod_eq, (h.map TauKey.beta).prod_eq]

variable [DecidableEq F] [DecidableEq G1] [DecidableEq G2] [DecidableEq GT]

/-- The contribution of `key` to the accumulator of `k` is accepted, whatever the secrets are, and whatever the
lengths of the two accumulators are. -/
theorem structured_accepted {P : Pairing F G1 G2 GT} (hP : P.Cyclic) (K : PokLib G2)
    (transcript : TauAccumulator G1 G2 → List UInt8) (len len' : Nat) (hlen : 2 ≤ len) (hlen' : 2 ≤ len')
    (k key : TauKey F) (s : G1 × G1 × G1) (pk : TauPublicKey G1 G2)
    (hpk : tauProve K transcript key (tauStructure P len k) s = some pk) (r : TauDraws F)
    (hr : r.tauG1.length = 2 * len' - 2 ∧ r.tauG2.length = len' - 1 ∧ r.alpha.length = len' - 1 ∧
      r.beta.length = len' - 1) :
    tauVerify P K transcript pk (tauStructure P len k)
      (tauStructure P len' ⟨k.tau * key.tau, k.alpha * key.alpha, k.beta * key.beta⟩) r = some true := by
  obtain ⟨s1, s2, s3⟩ := s
  obtain ⟨s1, rfl⟩ := hP.gen1 s1
  obtain ⟨s2, rfl⟩ := hP.gen1 s2
  obtain ⟨s3, rfl⟩ := hP.gen1 s3
  simp only [tauProve, pokProve, Option.bind_eq_bind, Option.bind_eq_some_iff, Option.pure_def,
    Option.some.injEq] at hpk
  obtain ⟨_, ⟨g1, hg1, rfl⟩, _, ⟨g2, hg2, rfl⟩, _, ⟨g3, hg3, rfl⟩, rfl⟩ := hpk
  obtain ⟨c1, rfl⟩ := hP.gen2 g1
  obtain ⟨c2, rfl⟩ := hP.gen2 g2
  obtain ⟨c3, rfl⟩ := hP.gen2 g3
  simp only [smul_smul] at hg1 hg2 hg3 ⊢
  have hmap1 : ∀ (n : Nat) (f : Nat → F), ((List.range n).map fun i => f i • P.one1) =
      ((List.range n).map f).map (· • P.one1) := by intro n f; simp
  have hmap2 : ∀ (n : Nat) (f : Nat → F), ((List.range n).map fun i => f i • P.one2) =
      ((List.range n).map f).map (· • P.one2) := by intro n f; simp
  have hget : ∀ (n i : Nat) (f : Nat → F), i < n → ((List.range n).map f)[i]? = some (f i) := by
    intro n i f h; simp [h]
  have hiff := tauVerify_iff hP K transcript (s1, key.tau * s1, key.tau * c1) (s2, key.alpha * s2, key.alpha * c2)
    (s3, key.beta * s3, key.beta * c3) c1 c2 c3 (tauStructure P len k) k.tau k.alpha k.beta k.beta
    ((List.range (2 * len' - 1)).map fun i => (k.tau * key.tau) ^ i)
    ((List.range len').map fun i => (k.tau * key.tau) ^ i)
    ((List.range len').map fun i => k.alpha * key.alpha * (k.tau * key.tau) ^ i)
    ((List.range len').map fun i => k.beta * key.beta * (k.tau * key.tau) ^ i) (k.beta * key.beta) r
    (by rw [tauStructure, List.getElem?_map, List.getElem?_range (by omega)]; simp)
    (by rw [tauStructure, List.getElem?_map, List.getElem?_range (by omega)]; simp)
    (by rw [tauStructure, List.getElem?_map, List.getElem?_range (by omega)]; simp) rfl hg1 hg2 hg3
  rw [← hmap1, ← hmap2, ← hmap1, ← hmap1] at hiff
  refine hiff.2 ?_
  have geo : ∀ (n : Nat) (r : List F), ratioDefect (k.tau * key.tau)
      ((List.range n).map fun i => (k.tau * key.tau) ^ i) r = 0 := by
    intro n r
    have := ratioDefect_geometric (k.tau * key.tau) 1 n r
    simpa using this
  exact
    { pokτ := by ring
      pokα := by ring
      pokβ := by ring
      one1 := by rw [hget _ _ _ (by omega)]; simp
      one2 := by rw [hget _ _ _ (by omega)]; simp
      τ := ⟨_, hget _ _ _ (by omega), by ring⟩
      α := ⟨_, hget _ _ _ (by omega), by ring⟩
      β := ⟨_, hget _ _ _ (by omega), by ring⟩
      β2 := ⟨_, hget _ _ _ (by omega), by ring⟩
      powers1 := ⟨_, hget _ _ _ (by omega), by simp; omega, by rw [pow_one]; exact geo _ _⟩
      powers2 := ⟨_, hget _ _ _ (by omega), by simp; omega, by rw [pow_one]; exact geo _ _⟩
      powersα := ⟨_, hget _ _ _ (by omega), by simp; omega, by rw [pow_one]; exact ratioDefect_geometric _ _ _ _⟩
      powersβ := ⟨_, hget _ _ _ (by omega), by simp; omega, by rw [pow_one]; exact ratioDefect_geometric _ _ _ _⟩ }

theorem tauProve_some (K : PokLib G2) (hK : ∀ x, K.hash x ≠ []) (transcript : TauAccumulator G1 G2 → List UInt8)
    (key : TauKey F) (before : TauAccumulator G1 G2) (s : G1 × G1 × G1) :
    ∃ pk, tauProve K transcript key before s = some pk := by
  have h : ∀ (a b : G1) (t : List UInt8) (p : UInt8), ∃ g, pokChallenge K a b t p = some g := by
    intro a b t p
    refine ⟨K.random ((K.hash (p :: t))[0]'(List.length_pos_iff.2 (hK _))), ?_⟩
    rw [pokChallenge, List.getElem?_eq_getElem (List.length_pos_iff.2 (hK _))]
    rfl
  obtain ⟨g1, h1⟩ := h s.1 (key.tau • s.1) (transcript before) 0
  obtain ⟨g2, h2⟩ := h s.2.1 (key.alpha • s.2.1) (transcript before) 1
  obtain ⟨g3, h3⟩ := h s.2.2 (key.beta • s.2.2) (transcript before) 2
  simp [tauProve, pokProve, h1, h2, h3]

/-- **C55** (honest contributions are accepted): after any history of contributions, one more contribution, with
any secrets, can be made and proved, and it is accepted for all the random choices of prover and verifier. -/
theorem C55_honest_accepted {P : Pairing F G1 G2 GT} (hP : P.Cyclic) (K : PokLib G2) (hK : ∀ x, K.hash x ≠ [])
    (transcript : TauAccumulator G1 G2 → List UInt8) (len : Nat) (hlen : 2 ≤ len) (ks : List (TauKey F))
    (key : TauKey F) (s : G1 × G1 × G1) (r : TauDraws F)
    (hr : r.tauG1.length = 2 * len - 2 ∧ r.tauG2.length = len - 1 ∧ r.alpha.length = len - 1 ∧
      r.beta.length = len - 1) :
    ∃ before after pk,
      ks.foldlM (TauAccumulator.transform len) (TauAccumulator.new P len) = some before ∧
      before.transform len key = some after ∧
      tauProve K transcript key before s = some pk ∧
      tauVerify P K transcript pk before after r = some true := by
  obtain ⟨pk, hpk⟩ := tauProve_some K hK transcript key (tauStructure P len (keyProduct ks)) s
  exact ⟨_, _, pk, C55_contributions P len (by omega) ks, transform_tauStructure P len (by omega) _ _, hpk,
    structured_accepted hP K transcript len len hlen hlen _ _ s pk hpk r hr⟩

/-- **C55** (accepted contributions are well formed). `before` is any accumulator of secrets `k` with `β ≠ 0`,
`after` and the public key are arbitrary. Either `after` is, entry by entry, an accumulator of secrets that are
those of `before` times factors `x` which the proofs of knowledge are about; or `verify_eval` accepts for at most
one in `|F|` of its random choices. Missing from the full property: acceptance is not impossible in the second
case (`C55_not_always`), the lengths of the vectors are not checked (`C55_length_unchecked`), `β = 0` is
possible (`C55_zero_beta`), and whether the contributor knows `x` (`C55_pok_forgery`). -/
theorem C55_sound_partial [Fintype F] {P : Pairing F G1 G2 GT} (hP : P.Cyclic) (K : PokLib G2)
    (hK : ∀ b, K.random b ≠ 0) (transcript : TauAccumulator G1 G2 → List UInt8) (pk : TauPublicKey G1 G2)
    (before after : TauAccumulator G1 G2) (k : TauKey F) (hb : TauWellFormed P before k) (hβ : k.beta ≠ 0) :
    (∃ x : TauKey F,
      TauWellFormed P after ⟨x.tau * k.tau, x.alpha * k.alpha, x.beta * k.beta⟩ ∧
      ∃ sτ sα sβ, pokChallenge K pk.tau.g1s pk.tau.g1sx (transcript before) 0 = some sτ ∧
        pokChallenge K pk.alpha.g1s pk.alpha.g1sx (transcript before) 1 = some sα ∧
        pokChallenge K pk.beta.g1s pk.beta.g1sx (transcript before) 2 = some sβ ∧
        PokFor pk.tau sτ x.tau ∧ PokFor pk.alpha sα x.alpha ∧ PokFor pk.beta sβ x.beta) ∨
    (Finset.univ.filter fun r : TauRandom F after =>
      tauVerify P K transcript pk before after r.draws = some true).card * Fintype.card F ≤
        Fintype.card (TauRandom F after) := by
  by_cases hne : (Finset.univ.filter fun r : TauRandom F after =>
      tauVerify P K transcript pk before after r.draws = some true) = ∅
  · right; rw [hne]; simp
  obtain ⟨r0, hr0⟩ := Finset.nonempty_iff_ne_empty.2 hne
  rw [Finset.mem_filter] at hr0
  obtain ⟨v1, v2, va, vb, b2, rfl⟩ : ∃ (v1 v2 va vb : List F) (b2 : F), after = ⟨v1.map (· • P.one1),
      v2.map (· • P.one2), va.map (· • P.one1), vb.map (· • P.one1), b2 • P.one2⟩ := by
    obtain ⟨l1, l2, la, lb, g⟩ := after
    obtain ⟨v1, rfl⟩ := exists_exponents P.one1 hP.gen1 l1
    obtain ⟨v2, rfl⟩ := exists_exponents P.one2 hP.gen2 l2
    obtain ⟨va, rfl⟩ := exists_exponents P.one1 hP.gen1 la
    obtain ⟨vb, rfl⟩ := exists_exponents P.one1 hP.gen1 lb
    obtain ⟨b2, rfl⟩ := hP.gen2 g
    exact ⟨v1, v2, va, vb, b2, rfl⟩
  obtain ⟨⟨a1, a2, a3⟩, ⟨e1, e2, e3⟩, ⟨d1, d2, d3⟩⟩ := pk
  obtain ⟨a1, rfl⟩ := hP.gen1 a1
  obtain ⟨a2, rfl⟩ := hP.gen1 a2
  obtain ⟨a3, rfl⟩ := hP.gen2 a3
  obtain ⟨e1, rfl⟩ := hP.gen1 e1
  obtain ⟨e2, rfl⟩ := hP.gen1 e2
  obtain ⟨e3, rfl⟩ := hP.gen2 e3
  obtain ⟨d1, rfl⟩ := hP.gen1 d1
  obtain ⟨d2, rfl⟩ := hP.gen1 d2
  obtain ⟨d3, rfl⟩ := hP.gen2 d3
  -- the reads of `before` and the challenges are defined since something was accepted
  have hdef := hr0.2
  simp only [tauVerify, Option.bind_eq_bind, Option.bind_eq_some_iff, firstFailure_true, List.forall_mem_cons] at hdef
  obtain ⟨sτ, hsτ, sα, hsα, sβ, hsβ, -, -, -, -, -, ⟨bτ, hbτ, -⟩, ⟨bα, hbα, -⟩, ⟨bβ, hbβ, -⟩, -⟩ := hdef
  have hchal : ∀ (x y : G1) (t : List UInt8) (p : UInt8) (g : G2), pokChallenge K x y t p = some g → g ≠ 0 := by
    intro x y t p g h
    rw [pokChallenge, Option.map_eq_some_iff] at h
    obtain ⟨b, -, rfl⟩ := h
    exact hK b
  have nτ := hchal _ _ _ _ _ hsτ
  have nα := hchal _ _ _ _ _ hsα
  have nβ := hchal _ _ _ _ _ hsβ
  obtain ⟨sτ, rfl⟩ := hP.gen2 sτ
  obtain ⟨sα, rfl⟩ := hP.gen2 sα
  obtain ⟨sβ, rfl⟩ := hP.gen2 sβ
  have nτ : sτ ≠ 0 := by rintro rfl; simp at nτ
  have nα : sα ≠ 0 := by rintro rfl; simp at nα
  have nβ : sβ ≠ 0 := by rintro rfl; simp at nβ
  have hbτ' : before.tauG1[1]? = some (k.tau • P.one1) := by rw [hbτ, hb.tauG1 _ _ hbτ, pow_one]
  have hbα' : before.alphaTauG1[0]? = some (k.alpha • P.one1) := by rw [hbα, hb.alphaTauG1 _ _ hbα]; simp
  have hbβ' : before.betaTauG1[0]? = some (k.beta • P.one1) := by rw [hbβ, hb.betaTauG1 _ _ hbβ]; simp
  have hiff := fun r => tauVerify_iff hP K transcript (a1, a2, a3) (e1, e2, e3) (d1, d2, d3) sτ sα sβ before
    k.tau k.alpha k.beta k.beta v1 v2 va vb b2 r hbτ' hbα' hbβ' hb.betaG2 hsτ hsα hsβ
  simp only at hiff
  have C0 := (hiff _).1 hr0.2
  obtain ⟨t, ht, hτ⟩ := C0.τ
  obtain ⟨u, hu, -⟩ := C0.powers1
  obtain ⟨α', hα', hα⟩ := C0.α
  obtain ⟨β', hβ', hβ1⟩ := C0.β
  obtain ⟨β'', hβ'', hβ2⟩ := C0.β2
  obtain rfl : β' = β'' := Option.some.inj (hβ'.symm.trans hβ'')
  -- the random checks, for each accepted choice
  generalize hA : (Finset.univ.filter fun r => tauVerify P K transcript _ before _ (TauRandom.draws r) = some true) = A
  have hacc : ∀ r ∈ A, ratioDefect u v1 (List.ofFn r.1) = 0 ∧ ratioDefect t v2 (List.ofFn r.2.1) = 0 ∧
        ratioDefect u va (List.ofFn r.2.2.1) = 0 ∧ ratioDefect u vb (List.ofFn r.2.2.2) = 0 := by
    intro r hr
    rw [← hA, Finset.mem_filter] at hr
    replace hr := hr.2
    have C := (hiff _).1 hr
    obtain ⟨u1, hu1, -, h1⟩ := C.powers1
    obtain ⟨u2, hu2, -, h2⟩ := C.powers2
    obtain ⟨u3, hu3, -, h3⟩ := C.powersα
    obtain ⟨u4, hu4, -, h4⟩ := C.powersβ
    obtain rfl : u = u1 := Option.some.inj (hu.symm.trans hu1)
    obtain rfl : t = u2 := Option.some.inj (ht.symm.trans hu2)
    obtain rfl : u = u3 := Option.some.inj (hu.symm.trans hu3)
    obtain rfl : u = u4 := Option.some.inj (hu.symm.trans hu4)
    exact ⟨h1, h2, h3, h4⟩
  clear hA
  have hupd : ∀ {n : Nat} (f : Fin n → F) (j : Fin n) (x : F),
      Function.update (Function.update f j (f j + x)) j (Function.update f j (f j + x) j + -x) = f := by
    intro n f j x; simp
  rcases ratio_or_shift u v1 ((v1.map (· • P.one1)).length - 1) (by simp) with g1 | ⟨j, c, hc, hs⟩
  swap
  · right
    refine count_le A (fun r x => (Function.update r.1 j (r.1 j + x), r.2)) (fun r => ratioDefect u v1 (List.ofFn r.1))
      c hc (fun r hr x => ?_) (fun r x => ?_)
    · simp only [hs, (hacc r hr).1, zero_add]
    · simp only [hupd]
  rcases ratio_or_shift t v2 ((v2.map (· • P.one2)).length - 1) (by simp) with g2 | ⟨j, c, hc, hs⟩
  swap
  · right
    refine count_le A (fun r x => (r.1, Function.update r.2.1 j (r.2.1 j + x), r.2.2))
      (fun r => ratioDefect t v2 (List.ofFn r.2.1)) c hc (fun r hr x => ?_) (fun r x => ?_)
    · simp only [hs, (hacc r hr).2.1, zero_add]
    · simp only [hupd]
  rcases ratio_or_shift u va ((va.map (· • P.one1)).length - 1) (by simp) with ga | ⟨j, c, hc, hs⟩
  swap
  · right
    refine count_le A (fun r x => (r.1, r.2.1, Function.update r.2.2.1 j (r.2.2.1 j + x), r.2.2.2))
      (fun r => ratioDefect u va (List.ofFn r.2.2.1)) c hc (fun r hr x => ?_) (fun r x => ?_)
    · simp only [hs, (hacc r hr).2.2.1, zero_add]
    · simp only [hupd]
  rcases ratio_or_shift u vb ((vb.map (· • P.one1)).length - 1) (by simp) with gb | ⟨j, c, hc, hs⟩
  swap
  · right
    refine count_le A (fun r x => (r.1, r.2.1, r.2.2.1, Function.update r.2.2.2 j (r.2.2.2 j + x)))
      (fun r => ratioDefect u vb (List.ofFn r.2.2.2)) c hc (fun r hr x => ?_) (fun r x => ?_)
    · simp only [hs, (hacc r hr).2.2.2, zero_add]
    · simp only [hupd]
  left
  have get_eq : ∀ (v : List F) (w c : F), (∀ (i : Nat) (h : i < v.length), v[i] = v[0] * w ^ i) →
      v[0]? = some c → ∀ (i : Nat) (y : F), v[i]? = some y → y = c * w ^ i := by
    intro v w c h h0 i y hy
    obtain ⟨hi, rfl⟩ := List.getElem?_eq_some_iff.1 hy
    obtain ⟨h0', rfl⟩ := List.getElem?_eq_some_iff.1 h0
    exact h i hi
  have htu : t = u := by
    have := get_eq v1 u 1 g1 C0.one1 1 t ht
    simpa using this
  subst htu
  simp only at hτ hα hβ1
  have hpok := C0.pokτ
  have hpokα := C0.pokα
  have hpokβ := C0.pokβ
  simp only at hpok hpokα hpokβ
  have et : t = a3 / sτ * k.tau := by field_simp; linear_combination -hτ
  have eα : α' = e3 / sα * k.alpha := by field_simp; linear_combination -hα
  have eβ : β' = d3 / sβ * k.beta := by field_simp; linear_combination -hβ1
  have hb2 : b2 = β' := by
    apply mul_left_cancel₀ hβ
    rw [hβ2]; ring
  refine ⟨⟨a3 / sτ, e3 / sα, d3 / sβ⟩, ?_, _, _, _, hsτ, hsα, hsβ, ?_, ?_, ?_⟩
  · have lift : ∀ {G : Type} [AddCommGroup G] [Module F G] (g0 : G) (v : List F) (c : F),
        (∀ (i : Nat) (h : i < v.length), v[i] = v[0] * t ^ i) → v[0]? = some c →
        ∀ (i : Nat) (g : G), (v.map (· • g0))[i]? = some g → g = (c * t ^ i) • g0 := by
      intro G _ _ g0 v c h h0 i g hg
      rw [List.getElem?_map, Option.map_eq_some_iff] at hg
      obtain ⟨y, hy, rfl⟩ := hg
      rw [get_eq v t c h h0 i y hy]
    constructor
    · intro i g hg
      have := lift P.one1 v1 1 g1 C0.one1 i g hg
      rw [this, et, one_mul]
    · intro i g hg
      have := lift P.one2 v2 1 g2 C0.one2 i g hg
      rw [this, et, one_mul]
    · intro i g hg
      have := lift P.one1 va α' ga hα' i g hg
      rw [this, et, eα]
    · intro i g hg
      have := lift P.one1 vb β' gb hβ' i g hg
      rw [this, et, eβ]
    · simp only [hb2, eβ]
  · constructor
    · simp only [smul_smul]; congr 1; field_simp; linear_combination -hpok
    · simp only [smul_smul]; congr 1; field_simp
  · constructor
    · simp only [smul_smul]; congr 1; field_simp; linear_combination -hpokα
    · simp only [smul_smul]; congr 1; field_simp
  · constructor
    · simp only [smul_smul]; congr 1; field_simp; linear_combination -hpokβ
    · simp only [smul_smul]; congr 1; field_simp

/-- **C55** (the result): what `from_accumulator` makes of an accumulator of secrets `k` are the Lagrange
polynomials at `τ`, also times `α` and `β`, and `τ^i Z(τ)`, in the exponents. -/
theorem C55_result (P : Pairing F G1 G2 GT) {D : TauDomain F G1 G2} (hD : D.Lawful) (len m : Nat)
    (hm : m ≤ D.dom.m) (hlen : D.dom.m ≤ len) (hpos : 1 ≤ D.dom.m) (k : TauKey F) :
    TauResult.fromAccumulator D len m (tauStructure P len k) = some (tauResultOf P D.dom m k) := by
  have hpow : ∀ {G : Type} [AddCommGroup G] [Module F G] (g : G) (c : F) (n : Nat),
      ((List.range n).map fun i => (c * k.tau ^ i) • g) = batchExp (c • g) (powersFrom k.tau 1 n) := by
    intro G _ _ g c n
    rw [powersFrom_one, batchExp, List.map_map]
    apply List.map_congr_left
    intro i _
    simp [smul_smul, mul_comm]
  have hpow1 : ∀ {G : Type} [AddCommGroup G] [Module F G] (g : G) (n : Nat),
      ((List.range n).map fun i => k.tau ^ i • g) = batchExp g (powersFrom k.tau 1 n) := by
    intro G _ _ g n
    simp [powersFrom_one, batchExp, List.map_map, Function.comp_def]
  have hh : (List.range (m - 1)).mapM (tauH D.Z (tauStructure P len k).tauG1) =
      some ((List.range (m - 1)).map fun i => (k.tau ^ i * D.dom.vanishing k.tau) • P.one1) := by
    apply mapM_eq_some_map
    intro i hi
    rw [List.mem_range] at hi
    simp only [tauStructure]
    rw [tauH_eq P _ _ _ _ (by rw [hD.Z_length]; omega), hD.Z_eval]
  have hα : (tauStructure P len k).alphaTauG1[0]? = some (k.alpha • P.one1) := by
    simp only [tauStructure]
    rw [List.getElem?_map, List.getElem?_range (by omega)]; simp
  have hβ : (tauStructure P len k).betaTauG1[0]? = some (k.beta • P.one1) := by
    simp only [tauStructure]
    rw [List.getElem?_map, List.getElem?_range (by omega)]; simp
  have l1 : D.lagrange1 (tauStructure P len k).tauG1 = some (tauResultOf P D.dom m k).coeffsG1 := by
    simp only [tauStructure]
    rw [hpow1, hD.lagrange1 _ _ _ (by omega)]; rfl
  have l2 : D.lagrange2 (tauStructure P len k).tauG2 = some (tauResultOf P D.dom m k).coeffsG2 := by
    simp only [tauStructure]
    rw [hpow1, hD.lagrange2 _ _ _ (by omega)]; rfl
  have l3 : D.lagrange1 (tauStructure P len k).alphaTauG1 = some (tauResultOf P D.dom m k).alphaCoeffsG1 := by
    simp only [tauStructure]
    rw [hpow, hD.lagrange1 _ _ _ (by omega)]
    simp [batchExp, tauResultOf, smul_smul, mul_comm]
  have l4 : D.lagrange1 (tauStructure P len k).betaTauG1 = some (tauResultOf P D.dom m k).betaCoeffsG1 := by
    simp only [tauStructure]
    rw [hpow, hD.lagrange1 _ _ _ (by omega)]
    simp [batchExp, tauResultOf, smul_smul, mul_comm]
  rw [TauResult.fromAccumulator, hα, hβ, l1, l2, l3, l4, hh]
  simp [hlen, guard, tauResultOf, tauStructure]

/-! ## findings -/

/-- The verifier does not reject a proof of knowledge whose first two elements are zero: then the third, which
is compared with the accumulators, is arbitrary, so nobody needs to know the ratio. -/
theorem C55_pok_forgery (P : Pairing F G1 G2 GT) (g2s X : G2) : pokVerify P ⟨0, 0, X⟩ g2s = true := by
  simp [pokVerify]

/-- The challenge does not depend on the elements it is for, and there are at most 256 challenges in all. -/
theorem C55_challenge_weak (K : PokLib G2) :
    (∀ (a b a' b' : G1) (t : List UInt8) (p : UInt8), pokChallenge K a b t p = pokChallenge K a' b' t p) ∧
    ∃ l : List G2, l.length = 256 ∧ ∀ (a b : G1) (t : List UInt8) (p : UInt8) (g : G2),
      pokChallenge K a b t p = some g → g ∈ l := by
  refine ⟨fun _ _ _ _ _ _ => rfl, (List.range 256).map fun i => K.random (UInt8.ofNat i), by simp, ?_⟩
  intro a b t p g h
  rw [pokChallenge, Option.map_eq_some_iff] at h
  obtain ⟨x, -, rfl⟩ := h
  rw [List.mem_map]
  refine ⟨x.toNat, List.mem_range.2 x.toNat_lt, by simp⟩

/-- A contributor may choose `τ = 0` and is accepted; from then on all powers but the first are zero, whatever
the other contributors, before or after, choose. -/
theorem C55_zero_contribution (P : Pairing F G1 G2 GT) (len : Nat) (hlen : 1 ≤ len) (ks ks' : List (TauKey F))
    (key : TauKey F) (h0 : key.tau = 0) (acc : TauAccumulator G1 G2)
    (hacc : (ks ++ key :: ks').foldlM (TauAccumulator.transform len) (TauAccumulator.new P len) = some acc) :
    ∀ (i : Nat) (g : G1), acc.tauG1[i + 1]? = some g → g = 0 := by
  rw [C55_contributions P len hlen] at hacc
  obtain rfl := Option.some.inj hacc
  intro i g hg
  have := (tauStructure_wellFormed P len (keyProduct (ks ++ key :: ks'))).tauG1 (i + 1) g hg
  rw [this]
  simp [keyProduct, h0]

/-- The lengths of the vectors are not checked: the contribution may also shorten or lengthen the accumulator. -/
theorem C55_length_unchecked {P : Pairing F G1 G2 GT} (hP : P.Cyclic) (K : PokLib G2) (hK : ∀ x, K.hash x ≠ [])
    (transcript : TauAccumulator G1 G2 → List UInt8) (len len' : Nat) (hlen : 2 ≤ len) (hlen' : 2 ≤ len')
    (k key : TauKey F) (s : G1 × G1 × G1) :
    ∃ pk, tauProve K transcript key (tauStructure P len k) s = some pk ∧
      ∀ r : TauDraws F, r.tauG1.length = 2 * len' - 2 ∧ r.tauG2.length = len' - 1 ∧ r.alpha.length = len' - 1 ∧
          r.beta.length = len' - 1 →
        tauVerify P K transcript pk (tauStructure P len k)
          (tauStructure P len' ⟨k.tau * key.tau, k.alpha * key.alpha, k.beta * key.beta⟩) r = some true := by
  obtain ⟨pk, hpk⟩ := tauProve_some K hK transcript key (tauStructure P len k) s
  exact ⟨pk, hpk, fun r hr => structured_accepted hP K transcript len len' hlen hlen' k key s pk hpk r hr⟩

/-- After a lengthened accumulator has been accepted nobody can contribute: the assertion of `transform` fails. -/
theorem C55_lengthened_stuck (P : Pairing F G1 G2 GT) (len len' : Nat) (hlen : 1 ≤ len) (h : len < len')
    (k key : TauKey F) : (tauStructure P len' k).transform len key = none := by
  have : naiveBatchExp (tauStructure P len' k).tauG1 (powersFrom key.tau 1 (2 * len - 1)) = none := by
    rw [naiveBatchExp, if_neg]
    simp only [tauStructure, List.length_map, List.length_range, length_powersFrom]
    omega
  rw [TauAccumulator.transform, this]
  rfl

/-- A ceremony of length one cannot be verified: `verify_eval` reads the second power. -/
theorem C55_length_one (P : Pairing F G1 G2 GT) (K : PokLib G2) (transcript : TauAccumulator G1 G2 → List UInt8)
    (k key : TauKey F) (s : G1 × G1 × G1) (pk : TauPublicKey G1 G2)
    (hpk : tauProve K transcript key (tauStructure P 1 k) s = some pk) (after : TauAccumulator G1 G2)
    (h1 : after.tauG1[0]? = some P.one1) (h2 : after.tauG2[0]? = some P.one2) (r : TauDraws F) :
    tauVerify P K transcript pk (tauStructure P 1 k) after r = none := by
  simp only [tauProve, pokProve, Option.bind_eq_bind, Option.bind_eq_some_iff, Option.pure_def,
    Option.some.injEq] at hpk
  obtain ⟨_, ⟨g1, hg1, rfl⟩, _, ⟨g2, hg2, rfl⟩, _, ⟨g3, hg3, rfl⟩, rfl⟩ := hpk
  have hread : (tauStructure P 1 k).tauG1[1]? = none := by simp [tauStructure]
  have hpok : ∀ (x : F) (s : G1) (g : G2), pokVerify P ⟨s, x • s, x • g⟩ g = true := by
    intro x s g; simp [pokVerify]
  simp [tauVerify, hg1, hg2, hg3, hpok, h1, h2, hread, firstFailure]

/-- Once `β` is zero, `beta_g2` is not constrained at all: an accepted contribution may put anything there. -/
theorem C55_zero_beta {P : Pairing F G1 G2 GT} (hP : P.Cyclic) (K : PokLib G2)
    (transcript : TauAccumulator G1 G2 → List UInt8) (len : Nat) (hlen : 2 ≤ len)
    (k key : TauKey F) (h0 : k.beta = 0) (s : G1 × G1 × G1) (pk : TauPublicKey G1 G2)
    (hpk : tauProve K transcript key (tauStructure P len k) s = some pk) (X : G2) (r : TauDraws F)
    (hr : r.tauG1.length = 2 * len - 2 ∧ r.tauG2.length = len - 1 ∧ r.alpha.length = len - 1 ∧
      r.beta.length = len - 1) :
    tauVerify P K transcript pk (tauStructure P len k)
      { tauStructure P len ⟨k.tau * key.tau, k.alpha * key.alpha, k.beta * key.beta⟩ with betaG2 := X } r
      = some true := by
  have h := structured_accepted hP K transcript len len hlen hlen k key s pk hpk r hr
  have hb : (tauStructure P len k).betaTauG1[0]? = some 0 := by
    simp only [tauStructure]
    rw [List.getElem?_map, List.getElem?_range (by omega)]; simp [h0]
  have ha : (tauStructure P len ⟨k.tau * key.tau, k.alpha * key.alpha, k.beta * key.beta⟩).betaTauG1[0]? =
      some (0 : G1) := by
    simp only [tauStructure]
    rw [List.getElem?_map, List.getElem?_range (by omega)]; simp [h0]
  simp only [tauVerify, hb, ha, Option.bind_eq_bind, Option.bind_eq_some_iff, firstFailure_true,
    List.forall_mem_cons, Option.bind_some] at h ⊢
  obtain ⟨a, ha, b, hb, c, hc, c1, c2, c3, c4, c5, c6, c7, c8, -, c10⟩ := h
  refine ⟨a, ha, b, hb, c, hc, c1, c2, c3, c4, c5, c6, c7, c8, ?_, c10⟩
  simp [isSameRatio]

/-- "Always" is not true: with unlucky random choices an accumulator that is not well formed is accepted. Here
the powers are replaced by anything that agrees where the verifier reads single entries. -/
theorem C55_not_always {P : Pairing F G1 G2 GT} (hP : P.Cyclic) (K : PokLib G2)
    (transcript : TauAccumulator G1 G2 → List UInt8) (len : Nat) (hlen : 3 ≤ len)
    (k key : TauKey F) (s : G1 × G1 × G1) (pk : TauPublicKey G1 G2)
    (hpk : tauProve K transcript key (tauStructure P len k) s = some pk) (X : G1) :
    ∃ r : TauDraws F, tauVerify P K transcript pk (tauStructure P len k)
      { tauStructure P len ⟨k.tau * key.tau, k.alpha * key.alpha, k.beta * key.beta⟩ with
        tauG1 := (tauStructure P len ⟨k.tau * key.tau, k.alpha * key.alpha, k.beta * key.beta⟩).tauG1.set 2 X } r
      = some true := by
  let r : TauDraws F := ⟨List.replicate (2 * len - 2) 0, List.replicate (len - 1) 0, List.replicate (len - 1) 0,
    List.replicate (len - 1) 0⟩
  refine ⟨r, ?_⟩
  have h := structured_accepted hP K transcript len len (by omega) (by omega) k key s pk hpk r (by simp [r])
  have hz : ∀ {G : Type} [AddCommGroup G] [Module F G] (v : List G) (n : Nat), v.length = n →
      multiexp v (List.replicate n (0 : F)) = some 0 := by
    intro G _ _ v n hv
    subst hv
    rw [multiexp, if_pos (by simp)]
    congr 1
    apply List.sum_eq_zero
    intro x hx
    obtain ⟨i, hi, rfl⟩ := List.getElem_of_mem hx
    simp
  have hp : ∀ l : List G1, l.length = 2 * len - 1 → powerPairs l r.tauG1 = some (0, 0) := by
    intro l hl
    rw [powerPairs, if_neg (by rintro rfl; simp at hl; omega), mergePairs]
    simp only [r]
    rw [hz l.dropLast _ (by simp; omega), hz l.tail _ (by simp; omega)]
    rfl
  have hl : (tauStructure P len ⟨k.tau * key.tau, k.alpha * key.alpha, k.beta * key.beta⟩).tauG1.length =
      2 * len - 1 := by simp [tauStructure]
  simp only [tauVerify, Option.bind_eq_bind, Option.bind_eq_some_iff, firstFailure_true,
    List.forall_mem_cons] at h ⊢
  obtain ⟨a, ha, b, hb, c, hc, c1, c2, c3, c4, c5, c6, c7, c8, c9, c10, c11, c12⟩ := h
  refine ⟨a, ha, b, hb, c, hc, c1, c2, c3, ?_, c5, ?_, c7, c8, c9, ?_, ?_, c12⟩
  · rw [List.getElem?_set_ne (by omega)]; exact c4
  · rw [List.getElem?_set_ne (by omega)]; exact c6
  · rw [hp _ hl] at c10
    rw [hp _ (by rw [List.length_set, hl])]
    exact c10
  · rw [List.getElem?_set_ne (by omega), List.getElem?_set_ne (by omega)]; exact c11

/-! ## the hypotheses can be met -/

section Examples

/-- The polynomial that is one at point `i` of the domain and zero at the others. -/
noncomputable def lagrangePoly (D : EvalDomain F) (i : Nat) : F[X] :=
  ∏ j ∈ (Finset.range D.m).erase i, (C (D.point i - D.point j)⁻¹ * (X - C (D.point j)))

open Classical in
/-- A domain over the groups for every evaluation domain, by the coefficients of the polynomials. -/
noncomputable def TauDomain.ofDomain (D : EvalDomain F) : TauDomain F G1 G2 where
  dom := D
  lagrange1 l := if D.m ≤ l.length then some ((List.range D.m).map fun i =>
    ∑ j ∈ Finset.range D.m, (lagrangePoly D i).coeff j • l.getD j 0) else none
  lagrange2 l := if D.m ≤ l.length then some ((List.range D.m).map fun i =>
    ∑ j ∈ Finset.range D.m, (lagrangePoly D i).coeff j • l.getD j 0) else none
  Z := (List.range (D.m + 1)).map D.zPoly.coeff

theorem lagrangePoly_degree (D : EvalDomain F) (i : Nat) (hi : i < D.m) : (lagrangePoly D i).natDegree < D.m := by
  have h : (lagrangePoly D i).natDegree ≤ ∑ j ∈ (Finset.range D.m).erase i, 1 := by
    refine (natDegree_prod_le _ _).trans (Finset.sum_le_sum fun j _ => ?_)
    refine natDegree_mul_le.trans ?_
    rw [natDegree_C, natDegree_X_sub_C]
  rw [Finset.sum_const, Finset.card_erase_of_mem (by simpa using hi)] at h
  simp at h
  omega

theorem lagrangePoly_powers {G : Type} [AddCommGroup G] [Module F G] {D : EvalDomain F} (hD : D.Lawful) (t : F)
    (g : G) (k : Nat) (hk : D.m ≤ k) :
    ((List.range D.m).map fun i => ∑ j ∈ Finset.range D.m,
      (lagrangePoly D i).coeff j • (batchExp g (powersFrom t 1 k)).getD j 0) = batchExp g (D.lagrange t) := by
  rw [hD.lagrange_eq, batchExp, batchExp, List.map_map]
  apply List.map_congr_left
  intro i hi
  rw [List.mem_range] at hi
  have : ∀ j ∈ Finset.range D.m, (lagrangePoly D i).coeff j •
      ((powersFrom t 1 k).map fun x => x • g).getD j 0 = ((lagrangePoly D i).coeff j * t ^ j) • g := by
    intro j hj
    rw [Finset.mem_range] at hj
    rw [powersFrom_one, List.getD_eq_getElem _ _ (by simp; omega)]
    simp [smul_smul]
  rw [Finset.sum_congr rfl this, ← Finset.sum_smul, ← eval_eq_sum_range' (lagrangePoly_degree D i hi)]
  simp only [lagrangePoly, eval_prod, Function.comp_apply]
  congr 1
  apply Finset.prod_congr rfl
  intro j _
  simp [div_eq_mul_inv, mul_comm]

theorem TauDomain.ofDomain_lawful {D : EvalDomain F} (hD : D.Lawful) :
    (TauDomain.ofDomain D : TauDomain F G1 G2).Lawful where
  dom := hD
  lagrange1 t g k hk := by
    have : D.m ≤ k := hk
    simp only [TauDomain.ofDomain]
    rw [if_pos (by simpa [batchExp, length_powersFrom] using this), lagrangePoly_powers hD t g k this]
  lagrange2 t g k hk := by
    have : D.m ≤ k := hk
    simp only [TauDomain.ofDomain]
    rw [if_pos (by simpa [batchExp, length_powersFrom] using this), lagrangePoly_powers hD t g k this]
  Z_length := by simp [TauDomain.ofDomain]
  Z_eval x := by
    simp only [TauDomain.ofDomain]
    rw [← eval_toPoly, exists_toPoly, hD.eval_zPoly]
    rw [degree_eq_natDegree (EvalDomain.zPoly_monic D).ne_zero, EvalDomain.zPoly_natDegree]
    exact_mod_cast Nat.lt_succ_self _

instance : Fact (Nat.Prime 17) := ⟨by norm_num⟩

/-- multiplication modulo 17 as a pairing -/
def exPairing17 : Pairing (ZMod 17) (ZMod 17) (ZMod 17) (ZMod 17) :=
  ⟨LinearMap.mul (ZMod 17) (ZMod 17), 1, 1, fun _ => true, fun _ => true⟩

theorem exPairing17_cyclic : exPairing17.Cyclic where
  gen1 g := ⟨g, by simp [exPairing17]⟩
  gen2 g := ⟨g, by simp [exPairing17]⟩
  e_ne := by simp [exPairing17]

/-- a "hash" that sums the bytes and a challenge that is never zero -/
def exPokLib : PokLib (ZMod 17) := ⟨fun l => [l.sum], fun b => (b.toNat % 16 + 1 : Nat)⟩

theorem exPokLib_ne (b : UInt8) : exPokLib.random b ≠ 0 := by
  have h : ∀ n < 16, ((n + 1 : Nat) : ZMod 17) ≠ 0 := by decide +kernel
  exact h _ (Nat.mod_lt _ (by norm_num))

def exTauTranscript (acc : TauAccumulator (ZMod 17) (ZMod 17)) : List UInt8 :=
  acc.tauG1.map fun x => UInt8.ofNat x.val

/-- two contributions, and a third that is verified -/
example := C55_honest_accepted exPairing17_cyclic exPokLib (fun x => by simp [exPokLib]) exTauTranscript 3 (by norm_num)
  [⟨2, 3, 5⟩, ⟨7, 11, 13⟩] ⟨3, 4, 6⟩ (1, 2, 3) ⟨[1, 2, 3, 4], [5, 6], [7, 8], [9, 10]⟩ (by decide)

/-- what the first two make -/
example : ([⟨2, 3, 5⟩, ⟨7, 11, 13⟩] : List (TauKey (ZMod 17))).foldlM (TauAccumulator.transform 2) (TauAccumulator.new exPairing17 2) =
    some ⟨[1, 14, 14 * 14], [1, 14], [33, 33 * 14], [65, 65 * 14], 65⟩ := by
  rw [C55_contributions exPairing17 2 (by norm_num)]
  simp only [Option.some.injEq, tauStructure, TauAccumulator.mk.injEq]
  decide +kernel

/-- soundness applies to every accumulator that comes after these, whatever it is -/
example (pk : TauPublicKey (ZMod 17) (ZMod 17)) (after : TauAccumulator (ZMod 17) (ZMod 17)) :=
  C55_sound_partial exPairing17_cyclic exPokLib exPokLib_ne exTauTranscript pk
    (tauStructure exPairing17 3 ⟨14, 33, 65⟩) after ⟨14, 33, 65⟩ (tauStructure_wellFormed _ _ _) (by decide +kernel)

/-- the same contribution with the right and with a wrong power -/
example : tauVerify exPairing17 exPokLib exTauTranscript
      ⟨⟨1, 3, 3 * 4⟩, ⟨1, 4, 4 * 5⟩, ⟨1, 6, 6 * 6⟩⟩ (tauStructure exPairing17 2 ⟨1, 1, 1⟩)
      ⟨[1, 3, 9], [1, 3], [4, 12], [6, 18], 6⟩ ⟨[1, 1], [1], [1], [1]⟩ = some true ∧
    tauVerify exPairing17 exPokLib exTauTranscript
      ⟨⟨1, 3, 3 * 4⟩, ⟨1, 4, 4 * 5⟩, ⟨1, 6, 6 * 6⟩⟩ (tauStructure exPairing17 2 ⟨1, 1, 1⟩)
      ⟨[1, 3, 10], [1, 3], [4, 12], [6, 18], 6⟩ ⟨[1, 1], [1], [1], [1]⟩ = some false := by
  constructor <;> decide +kernel

noncomputable example (k : TauKey ℚ) := C55_result exPairing
  (TauDomain.ofDomain_lawful (G1 := ℚ) (G2 := ℚ) EvalDomain.example_lawful) 5 2 le_rfl (by simp [TauDomain.ofDomain, EvalDomain.ofPoints])
  (by simp [TauDomain.ofDomain, EvalDomain.ofPoints]) k

end Examples

end Crypto3Zk
