import Verif.Spec.Groth16Aggregate
import Verif.Lemmas.KZG
import Verif.Lemmas.Groups
import Mathlib.Tactic.Module
import Mathlib.Tactic.LinearCombination
import Mathlib.Tactic.FieldSimp

/-!
# Lemmas: aggregated Groth16 proofs
-/

set_option linter.unusedSectionVars false

namespace Crypto3Zk

variable {F : Type} [Field F] {G1 G2 GT : Type} [AddCommGroup G1] [Module F G1] [AddCommGroup G2]
  [Module F G2] [AddCommGroup GT] [Module F GT]

/-! ## Bilinear sums -/

section
variable {A B C : Type} [AddCommGroup A] [Module F A] [AddCommGroup B] [Module F B]
  [AddCommGroup C] [Module F C]

/-- `Σ f(a_i, b_i)` -/
def bsum (f : A →ₗ[F] B →ₗ[F] C) (a : List A) (b : List B) : C :=
  (List.zipWith (fun x y => f x y) a b).sum

theorem bsum_append (f : A →ₗ[F] B →ₗ[F] C) (a1 a2 : List A) (b1 b2 : List B)
    (h : a1.length = b1.length) :
    bsum f (a1 ++ a2) (b1 ++ b2) = bsum f a1 b1 + bsum f a2 b2 := by
  unfold bsum
  rw [List.zipWith_append h, List.sum_append]

theorem bsum_zip (f : A →ₗ[F] B →ₗ[F] C) (c d : F) (hcd : c * d = 1) :
    ∀ (a1 a2 : List A) (b1 b2 : List B), a1.length = a2.length → a1.length = b1.length →
      a1.length = b2.length →
      bsum f (List.zipWith (fun x y => x + c • y) a1 a2) (List.zipWith (fun x y => x + d • y) b1 b2) =
        bsum f a1 b1 + bsum f a2 b2 + c • bsum f a2 b1 + d • bsum f a1 b2
  | [], a2, b1, b2, h1, h2, h3 => by
    obtain rfl : a2 = [] := List.length_eq_zero_iff.mp h1.symm
    obtain rfl : b1 = [] := List.length_eq_zero_iff.mp h2.symm
    simp [bsum]
  | x :: a1, [], _, _, h1, _, _ => by simp at h1
  | x :: a1, y :: a2, [], _, _, h2, _ => by simp at h2
  | x :: a1, y :: a2, u :: b1, [], _, _, h3 => by simp at h3
  | x :: a1, y :: a2, u :: b1, w :: b2, h1, h2, h3 => by
    have ih := bsum_zip f c d hcd a1 a2 b1 b2 (by simpa using h1) (by simpa using h2) (by simpa using h3)
    unfold bsum at ih ⊢
    simp only [List.zipWith_cons_cons, List.sum_cons, ih, map_add, map_smul, LinearMap.add_apply,
      LinearMap.smul_apply, smul_smul, smul_add]
    rw [show d * c = 1 by rw [mul_comm]; exact hcd] 
    module

theorem bsum_fold (f : A →ₗ[F] B →ₗ[F] C) (c d : F) (hcd : c * d = 1) (a : List A) (b : List B)
    (n : Nat) (ha : a.length = 2 * n) (hb : b.length = 2 * n) :
    bsum f (List.zipWith (fun x y => x + c • y) (a.take n) (a.drop n))
        (List.zipWith (fun x y => x + d • y) (b.take n) (b.drop n)) =
      bsum f a b + c • bsum f (a.drop n) (b.take n) + d • bsum f (a.take n) (b.drop n) := by
  rw [bsum_zip f c d hcd _ _ _ _ (by simp; omega) (by simp; omega) (by simp; omega)]
  congr 2
  rw [← bsum_append f _ _ _ _ (by simp; omega), List.take_append_drop, List.take_append_drop]

end

/-! ## Geometric vectors -/

section
variable {G : Type} [AddCommGroup G] [Module F G]

theorem powerKey_smul (s x : F) (g : G) (n : Nat) :
    powerKey s (x • g) n = (powerKey s g n).map (x • ·) := by
  induction n generalizing g with
  | zero => rfl
  | succ n ih =>
    simp only [powerKey, List.map_cons]
    rw [smul_comm, ih]

theorem powerKey_append (s : F) (g : G) (m n : Nat) :
    powerKey s g (m + n) = powerKey s g m ++ powerKey s (s ^ m • g) n := by
  induction m generalizing g with
  | zero => simp [powerKey]
  | succ m ih =>
    rw [Nat.succ_add]
    simp only [powerKey, List.cons_append]
    rw [ih, smul_smul, ← pow_succ]

theorem powerKey_take (s : F) (g : G) {m n : Nat} (h : m ≤ n) :
    (powerKey s g n).take m = powerKey s g m := by
  obtain ⟨d, rfl⟩ := Nat.exists_eq_add_of_le h
  rw [powerKey_append, List.take_append_of_le_length (by simp), List.take_of_length_le (by simp)]

theorem powerKey_drop (s : F) (g : G) {m n : Nat} (h : m ≤ n) :
    (powerKey s g n).drop m = powerKey s (s ^ m • g) (n - m) := by
  obtain ⟨d, rfl⟩ := Nat.exists_eq_add_of_le h
  rw [powerKey_append, List.drop_append_of_le_length (by simp), List.drop_of_length_le (by simp)]
  simp

theorem powerKey_zip_add (s x : F) (g h : G) (n : Nat) :
    List.zipWith (fun a b => a + x • b) (powerKey s g n) (powerKey s h n) = powerKey s (g + x • h) n := by
  induction n generalizing g h with
  | zero => rfl
  | succ n ih =>
    simp only [powerKey, List.zipWith_cons_cons, ih]
    rw [smul_add, smul_comm s x h]

/-- folding a geometric vector in half -/
theorem powerKey_fold (s x : F) (g : G) (n : Nat) :
    List.zipWith (fun a b => a + x • b) ((powerKey s g (2 * n)).take n) ((powerKey s g (2 * n)).drop n) =
      powerKey s ((1 + x * s ^ n) • g) n := by
  rw [powerKey_take s g (by omega), powerKey_drop s g (by omega), show 2 * n - n = n by omega,
    powerKey_zip_add, smul_smul, add_smul, one_smul]

theorem powerKey_scale (r c s : F) (g : G) (n : Nat) :
    List.zipWith (fun x g => x • g) ((powerKey r c n).map fun x => x⁻¹) (powerKey s g n) =
      powerKey (r⁻¹ * s) (c⁻¹ • g) n := by
  induction n generalizing c g with
  | zero => rfl
  | succ n ih =>
    simp only [powerKey, List.map_cons, List.zipWith_cons_cons, ih, smul_eq_mul, mul_inv, smul_smul]
    congr 3
    ring

theorem multiexp_powerKey (s : F) (g : G) (f : List F) :
    multiexp (powerKey s g f.length) f = some (evalPoly f s • g) := by
  have := kzgCommit_powerKey s g f.length f le_rfl
  unfold kzgCommit at this
  rw [if_pos (by simp), List.take_of_length_le (by simp)] at this
  exact this

end

/-! ## The product form -/

theorem foldFactor_append (xs : List F) (x y : F) :
    foldFactor (xs ++ [x]) y = (1 + x * y) * foldFactor xs (y ^ 2) := by
  induction xs with
  | nil => simp [foldFactor]
  | cons c xs ih =>
    simp only [List.cons_append, foldFactor, ih, List.length_append, List.length_cons, List.length_nil,
      zero_add]
    rw [← pow_mul, ← pow_succ']
    ring

theorem productFormLoop_eq (xs : List F) (res pw : F) :
    productFormLoop res pw xs = res * foldFactor xs.reverse pw := by
  induction xs generalizing res pw with
  | nil => simp [productFormLoop, foldFactor]
  | cons x xs ih =>
    rw [productFormLoop, ih, List.reverse_cons, foldFactor_append, pow_two]
    ring

theorem productForm_reverse (xs : List F) (h : xs ≠ []) (z r : F) :
    productForm xs.reverse z r = some (foldFactor xs (z * r)) := by
  cases hx : xs.reverse with
  | nil => exact absurd (by simpa using hx) h
  | cons y ys =>
    have he : xs = ys.reverse ++ [y] := by
      have := congrArg List.reverse hx
      simpa using this
    rw [productForm, productFormLoop_eq, he, foldFactor_append, pow_two]

theorem coefficientsLoop_append (cs : List F) (pw : F) (xs : List F) (x : F) :
    coefficientsLoop cs pw (xs ++ [x]) =
      coefficientsLoop cs pw xs ++ (coefficientsLoop cs pw xs).map fun c => c * (x * pw ^ 2 ^ xs.length) := by
  induction xs generalizing cs pw with
  | nil => simp [coefficientsLoop]
  | cons y ys ih =>
    simp only [List.cons_append, coefficientsLoop, ih, List.length_cons]
    rw [← pow_two, ← pow_mul, ← pow_succ']

theorem evalPoly_map_mul_right (a : List F) (t x : F) :
    evalPoly (a.map fun c => c * t) x = evalPoly a x * t := by
  induction a with
  | nil => simp
  | cons c a ih =>
    simp only [List.map_cons, evalPoly_cons, ih]
    ring

theorem transcriptCoefficients_spec (xs : List F) (r : F) :
    (transcriptCoefficients xs.reverse r).length = 2 ^ xs.length ∧
      (∀ y, evalPoly (transcriptCoefficients xs.reverse r) y = foldFactor xs (y * r)) ∧
      ((∀ x ∈ xs, x ≠ 0) → r ≠ 0 →
        ∃ c, (transcriptCoefficients xs.reverse r).getLast? = some c ∧ c ≠ 0) := by
  unfold transcriptCoefficients
  induction xs with
  | nil => simp [coefficientsLoop, foldFactor]
  | cons x xs ih =>
    obtain ⟨h1, h2, h3⟩ := ih
    rw [List.reverse_cons, coefficientsLoop_append]
    refine ⟨?_, ?_, ?_⟩
    · rw [List.length_append, List.length_map, h1, List.length_cons, pow_succ]
      omega
    · intro y
      rw [evalPoly_append, evalPoly_map_mul_right, h1, h2, foldFactor, List.length_reverse, mul_pow]
      ring
    · intro hx hr
      obtain ⟨c, hc, hc0⟩ := h3 (fun y hy => hx y (List.mem_cons_of_mem _ hy)) hr
      refine ⟨c * (x * r ^ 2 ^ xs.reverse.length), ?_, ?_⟩
      · rw [List.getLast?_append, List.getLast?_map, hc]
        simp
      · exact mul_ne_zero hc0 (mul_ne_zero (hx x List.mem_cons_self) (pow_ne_zero _ hr))

theorem polyCondense_eq [DecidableEq F] (p : List F) (c : F) (h : p.getLast? = some c) (hc : c ≠ 0) :
    polyCondense p = p ∧ polyIsZero p = false := by
  obtain ⟨q, rfl⟩ : ∃ q, p = q ++ [c] := by
    rcases List.eq_nil_or_concat p with rfl | ⟨q, d, rfl⟩
    · simp at h
    · exact ⟨q, by simp at h; rw [h]; simp⟩
  constructor
  · simp [polyCondense, List.dropWhile_cons, hc]
  · simp [polyIsZero, hc]

/-! ## Openings of the final keys -/

theorem proveKeyOpening_spec {G : Type} [AddCommGroup G] [Module F G] (alpha beta : F) (g : G)
    (poly : List F) (n : Nat) (hn : poly.length = n) (h2 : 2 ≤ n) (z v : F) (hv : v = evalPoly poly z) :
    ∃ qa qb : F, proveKeyOpening (powerKey alpha g n) (powerKey beta g n) poly v z =
      some (qa • g, qb • g) ∧ (alpha - z) * qa = evalPoly poly alpha - v ∧
      (beta - z) * qb = evalPoly poly beta - v := by
  subst hn hv
  set v := evalPoly poly z with hv
  have hlin : ([-z, 1] : List F).getLastD 0 = 1 := rfl
  have hq : ∀ y, (y - z) * evalPoly (polyDiv (polySub poly [v]) [-z, 1]) y = evalPoly poly y - v := by
    intro y
    have hp : toPoly (polySub poly [v]) = toPoly poly - Polynomial.C v := by
      rw [toPoly_polySub, toPoly_cons, toPoly_nil]; simp
    have hroot : (toPoly poly - Polynomial.C v).IsRoot z := by
      rw [Polynomial.IsRoot.def, Polynomial.eval_sub, Polynomial.eval_C, eval_toPoly, ← hv, sub_self]
    have hd := (toPoly_divMod (polySub poly [v]) [-z, 1] hlin).1
    have hmul : (Polynomial.X - Polynomial.C z) * toPoly (polyDiv (polySub poly [v]) [-z, 1]) =
        toPoly poly - Polynomial.C v := by
      rw [hd, hp, toPoly_lin]
      exact Polynomial.mul_divByMonic_eq_iff_isRoot.mpr hroot
    have := congrArg (Polynomial.eval y) hmul
    simpa [eval_toPoly] using this
  have hl : (polyDiv (polySub poly [v]) [-z, 1]).length = poly.length - 1 := by
    rw [length_polyDiv, length_polySub]
    simp
    omega
  set q := polyDiv (polySub poly [v]) [-z, 1] with hqd
  set q' := q ++ List.replicate (poly.length - q.length) 0 with hq'
  have hl' : q'.length = poly.length := by
    rw [hq', List.length_append, List.length_replicate, hl]; omega
  have he : ∀ y, evalPoly q' y = evalPoly q y := by
    intro y
    have h0 : ∀ m, evalPoly (List.replicate m (0 : F)) y = 0 := by
      intro m
      induction m with
      | zero => rfl
      | succ m ih => rw [List.replicate_succ, evalPoly_cons, ih]; ring
    rw [hq', evalPoly_append, h0]; ring
  refine ⟨evalPoly q alpha, evalPoly q beta, ?_, hq alpha, hq beta⟩
  unfold proveKeyOpening
  rw [if_pos (by simp)]
  simp only [← hqd, ← hq', hl']
  rw [← hl', multiexp_powerKey, multiexp_powerKey, he, he]
  simp

/-! ## One round -/

/-- all vectors have `n` entries -/
structure GipaVecs.Sized (s : GipaVecs F G1 G2) (n : Nat) : Prop where
  a : s.a.length = n
  b : s.b.length = n
  c : s.c.length = n
  r : s.r.length = n
  va : s.vkey.a.length = n
  vb : s.vkey.b.length = n
  wa : s.wkey.a.length = n
  wb : s.wkey.b.length = n

/-- `(g, x) ↦ x g` -/
def smulMap (F G : Type) [Field F] [AddCommGroup G] [Module F G] : G →ₗ[F] F →ₗ[F] G :=
  (LinearMap.lsmul F G).flip

/-- the six inner products of the vectors -/
def GipaVecs.tuz (P : Pairing F G1 G2 GT) (s : GipaVecs F G1 G2) : GipaTuz G1 GT :=
  ⟨bsum P.e s.a s.vkey.a + bsum P.e s.wkey.a s.b, bsum P.e s.a s.vkey.b + bsum P.e s.wkey.b s.b,
    bsum P.e s.a s.b, bsum P.e s.c s.vkey.a, bsum P.e s.c s.vkey.b, bsum (smulMap F G1) s.c s.r⟩

theorem innerPairing_eq (P : Pairing F G1 G2 GT) (a : List G1) (b : List G2) (h : a.length = b.length) :
    innerPairing P a b = some (bsum P.e a b) := by
  rw [innerPairing, if_pos h]; rfl

theorem multiexp_bsum {G : Type} [AddCommGroup G] [Module F G] (g : List G) (x : List F)
    (h : g.length = x.length) : multiexp g x = some (bsum (smulMap F G) g x) := by
  rw [multiexp, if_pos h]; rfl

theorem ippPair_eq (P : Pairing F G1 G2 GT) (v : CKey G2) (w : CKey G1) (a : List G1) (b : List G2)
    (n : Nat) (ha : a.length = n) (hb : b.length = n) (hva : v.a.length = n) (hvb : v.b.length = n)
    (hwa : w.a.length = n) (hwb : w.b.length = n) :
    ippPair P v w a b = some (bsum P.e a v.a + bsum P.e w.a b, bsum P.e a v.b + bsum P.e w.b b) := by
  unfold ippPair
  rw [if_pos (by simp [CKey.hasLen, ha, hb, hva, hvb, hwa, hwb]),
    innerPairing_eq P _ _ (by rw [ha, hva]), innerPairing_eq P _ _ (by rw [hb, hwa]),
    innerPairing_eq P _ _ (by rw [ha, hvb]), innerPairing_eq P _ _ (by rw [hb, hwb])]
  rfl

theorem ippSingle_eq (P : Pairing F G1 G2 GT) (v : CKey G2) (a : List G1)
    (n : Nat) (ha : a.length = n) (hva : v.a.length = n) (hvb : v.b.length = n) :
    ippSingle P v a = some (bsum P.e a v.a, bsum P.e a v.b) := by
  unfold ippSingle
  rw [if_pos (by simp [CKey.hasLen, ha, hva, hvb]),
    innerPairing_eq P _ _ (by rw [ha, hva]), innerPairing_eq P _ _ (by rw [ha, hvb])]
  rfl

/-- the vectors after a round, without the tests of lengths -/
def GipaVecs.folded (s : GipaVecs F G1 G2) (n : Nat) (c d : F) : GipaVecs F G1 G2 :=
  let f1 {G : Type} [AddCommGroup G] [Module F G] (v : List G) (x : F) : List G :=
    List.zipWith (fun a b => a + x • b) (v.take n) (v.drop n)
  ⟨f1 s.a c, f1 s.b d, f1 s.c c, f1 s.r d, ⟨f1 s.vkey.a d, f1 s.vkey.b d⟩, ⟨f1 s.wkey.a c, f1 s.wkey.b c⟩⟩

theorem fold_eq (s : GipaVecs F G1 G2) (n : Nat) (hn : 0 < n) (hs : s.Sized (2 * n)) (c d : F) :
    s.fold c d = some (s.folded n c d) ∧ (s.folded n c d).Sized n := by
  obtain ⟨h1, h2, h3, h4, h5, h6, h7, h8⟩ := hs
  constructor
  · unfold GipaVecs.fold CKey.split
    have hh : s.a.length / 2 = n := by omega
    simp only [hh]
    rw [if_pos (by omega), if_pos (by omega)]
    simp only [Option.bind_eq_bind, Option.bind_some]
    unfold compressVec CKey.compress
    rw [if_pos h1, if_pos h2, if_pos h3, if_pos h4,
      if_pos ⟨by simp; omega, by simp; omega, by simp; omega⟩,
      if_pos ⟨by simp; omega, by simp; omega, by simp; omega⟩]
    rfl
  · constructor <;> simp [GipaVecs.folded] <;> omega

/-- the messages of a round -/
def GipaVecs.messages (P : Pairing F G1 G2 GT) (s : GipaVecs F G1 G2) (n : Nat) : GipaRound G1 GT where
  tabL := (bsum P.e (s.a.drop n) (s.vkey.a.take n) + bsum P.e (s.wkey.a.drop n) (s.b.take n),
    bsum P.e (s.a.drop n) (s.vkey.b.take n) + bsum P.e (s.wkey.b.drop n) (s.b.take n))
  tabR := (bsum P.e (s.a.take n) (s.vkey.a.drop n) + bsum P.e (s.wkey.a.take n) (s.b.drop n),
    bsum P.e (s.a.take n) (s.vkey.b.drop n) + bsum P.e (s.wkey.b.take n) (s.b.drop n))
  tucL := (bsum P.e (s.c.drop n) (s.vkey.a.take n), bsum P.e (s.c.drop n) (s.vkey.b.take n))
  tucR := (bsum P.e (s.c.take n) (s.vkey.a.drop n), bsum P.e (s.c.take n) (s.vkey.b.drop n))
  zabL := bsum P.e (s.a.drop n) (s.b.take n)
  zabR := bsum P.e (s.a.take n) (s.b.drop n)
  zcL := bsum (smulMap F G1) (s.c.drop n) (s.r.take n)
  zcR := bsum (smulMap F G1) (s.c.take n) (s.r.drop n)

theorem slice_left {α : Type} (l : List α) (n : Nat) (h : n ≤ l.length) :
    slice l 0 n = some (l.take n) := by
  rw [slice, if_pos ⟨by omega, h⟩]; simp

theorem slice_right {α : Type} (l : List α) (n : Nat) (h : n ≤ l.length) :
    slice l n l.length = some (l.drop n) := by
  rw [slice, if_pos ⟨h, le_rfl⟩, List.take_of_length_le (by simp)]

theorem bind_to {α β : Type} {x : Option α} {a : α} {f : α → Option β} {y : Option β}
    (h : x = some a) (h2 : f a = y) : (x >>= f) = y := by
  rw [h]; exact h2

theorem gipaRound_eq (P : Pairing F G1 G2 GT) (s : GipaVecs F G1 G2) (n : Nat) (hn : 0 < n)
    (hs : s.Sized (2 * n)) : gipaRound P s = some (s.messages P n) := by
  obtain ⟨h1, h2, h3, h4, h5, h6, h7, h8⟩ := hs
  unfold gipaRound
  have hh : s.a.length / 2 = n := by omega
  rw [hh]
  refine bind_to (by rw [CKey.split, if_pos (by omega)]) ?_
  refine bind_to (by rw [CKey.split, if_pos (by omega)]) ?_
  refine bind_to (slice_left _ _ (by omega)) ?_
  refine bind_to (slice_right _ _ (by omega)) ?_
  refine bind_to (slice_left _ _ (by omega)) ?_
  refine bind_to (slice_right _ _ (by omega)) ?_
  refine bind_to (slice_left _ _ (by omega)) ?_
  refine bind_to (slice_right _ _ (by omega)) ?_
  refine bind_to (slice_left _ _ (by omega)) ?_
  refine bind_to (slice_right _ _ (by omega)) ?_
  refine bind_to (ippPair_eq P _ _ _ _ n (by simp; omega) (by simp; omega) (by simp; omega)
    (by simp; omega) (by simp; omega) (by simp; omega)) ?_
  refine bind_to (ippPair_eq P _ _ _ _ n (by simp; omega) (by simp; omega) (by simp; omega)
    (by simp; omega) (by simp; omega) (by simp; omega)) ?_
  refine bind_to (innerPairing_eq P _ _ (by simp; omega)) ?_
  refine bind_to (innerPairing_eq P _ _ (by simp; omega)) ?_
  refine bind_to (multiexp_bsum _ _ (by simp; omega)) ?_
  refine bind_to (multiexp_bsum _ _ (by simp; omega)) ?_
  refine bind_to (ippSingle_eq P _ _ n (by simp; omega) (by simp; omega) (by simp; omega)) ?_
  refine bind_to (ippSingle_eq P _ _ n (by simp; omega) (by simp; omega) (by simp; omega)) ?_
  rfl

theorem tuz_folded (P : Pairing F G1 G2 GT) (s : GipaVecs F G1 G2) (n : Nat) (hs : s.Sized (2 * n))
    (c d : F) (hcd : c * d = 1) :
    (s.folded n c d).tuz P = (s.tuz P).step (s.messages P n, c, d) := by
  obtain ⟨h1, h2, h3, h4, h5, h6, h7, h8⟩ := hs
  unfold GipaVecs.tuz GipaVecs.folded GipaTuz.step GipaVecs.messages
  dsimp only
  rw [GipaTuz.mk.injEq]
  refine ⟨?_, ?_, ?_, ?_, ?_, ?_⟩
  · rw [bsum_fold P.e c d hcd _ _ n h1 h5, bsum_fold P.e c d hcd _ _ n h7 h2]; module
  · rw [bsum_fold P.e c d hcd _ _ n h1 h6, bsum_fold P.e c d hcd _ _ n h8 h2]; module
  · rw [bsum_fold P.e c d hcd _ _ n h1 h2]
  · rw [bsum_fold P.e c d hcd _ _ n h3 h5]
  · rw [bsum_fold P.e c d hcd _ _ n h3 h6]
  · rw [bsum_fold (smulMap F G1) c d hcd _ _ n h3 h4]

/-! ## Challenges -/

theorem attempt_ne [DecidableEq F] (H : AggHash F G1 G2 GT) (fuel nonce : Nat) (st : List UInt8) (x : F)
    (h : H.attempt fuel nonce st = some x) : x ≠ 0 ∧ x ≠ 1 := by
  induction fuel generalizing nonce st with
  | zero => simp [AggHash.attempt] at h
  | succ fuel ih =>
    simp only [AggHash.attempt] at h
    split at h
    · exact ih _ _ h
    · split at h
      · exact ih _ _ h
      · next hx =>
        rw [Option.some.injEq] at h
        subst h
        exact not_or.mp hx

theorem read_ne [DecidableEq F] (H : AggHash F G1 G2 GT) (tr : List UInt8) (x : F)
    (h : H.read tr = some x) : x ≠ 0 ∧ x ≠ 1 := attempt_ne H _ _ _ x h

/-! ## The loop -/

/-- what the loop of the prover yields from vectors of `2^k` entries -/
structure GipaRun [DecidableEq F] (P : Pairing F G1 G2 GT) (H : AggHash F G1 G2 GT)
    (s : GipaVecs F G1 G2) (tr : List UInt8) (k : Nat) (out : GipaOut F G1 G2 GT) : Prop where
  rounds : out.rounds.length = k
  len : out.challenges.length = k
  inv : out.challengesInv = out.challenges.map (·⁻¹)
  ne : ∀ x ∈ out.challenges, x ≠ 0
  sized : out.vecs.Sized 1
  replay : gipaChallenges H tr out.rounds = some (out.challengesInv, out.tr)
  tuz : out.vecs.tuz P =
    (out.rounds.zip (out.challenges.zip out.challengesInv)).foldl GipaTuz.step (s.tuz P)
  r : ∀ x m, s.r = powerKey x m (2 ^ k) → out.vecs.r = [foldFactor out.challengesInv x • m]
  va : ∀ x m, s.vkey.a = powerKey x m (2 ^ k) → out.vecs.vkey.a = [foldFactor out.challengesInv x • m]
  vb : ∀ x m, s.vkey.b = powerKey x m (2 ^ k) → out.vecs.vkey.b = [foldFactor out.challengesInv x • m]
  wa : ∀ x m, s.wkey.a = powerKey x m (2 ^ k) → out.vecs.wkey.a = [foldFactor out.challenges x • m]
  wb : ∀ x m, s.wkey.b = powerKey x m (2 ^ k) → out.vecs.wkey.b = [foldFactor out.challenges x • m]

theorem gipaLoop_run [DecidableEq F] (P : Pairing F G1 G2 GT) (H : AggHash F G1 G2 GT)
    (hH : ∀ tr, ∃ x, H.read tr = some x) (k : Nat) :
    ∀ (fuel : Nat) (s : GipaVecs F G1 G2) (tr : List UInt8), k ≤ fuel → s.Sized (2 ^ k) →
      ∃ out, gipaLoop P H fuel s tr = some out ∧ GipaRun P H s tr k out := by
  induction k with
  | zero =>
    intro fuel s tr _ hs
    rw [pow_zero] at hs
    refine ⟨⟨[], [], [], s, tr⟩, ?_, ?_⟩
    · unfold gipaLoop
      rw [if_pos (by rw [hs.a])]
    · refine ⟨rfl, rfl, rfl, by simp, hs, rfl, rfl, ?_, ?_, ?_, ?_, ?_⟩ <;>
        (intro x m h; simp only [h, pow_zero, powerKey, foldFactor, one_smul])
  | succ k ih =>
    intro fuel s tr hf hs
    obtain ⟨fuel, rfl⟩ : ∃ f, fuel = f + 1 := ⟨fuel - 1, by omega⟩
    have hn : 0 < 2 ^ k := Nat.two_pow_pos k
    have hs2 : s.Sized (2 * 2 ^ k) := by rwa [pow_succ, mul_comm] at hs
    obtain ⟨d, hd⟩ := hH (H.writeRound tr (s.messages P (2 ^ k)))
    have hd0 : d ≠ 0 := (read_ne H _ _ hd).1
    obtain ⟨hfold, hsz⟩ := fold_eq s (2 ^ k) hn hs2 d⁻¹ d
    obtain ⟨out, hout, R⟩ := ih fuel (s.folded (2 ^ k) d⁻¹ d) (H.writeRound tr (s.messages P (2 ^ k)))
      (by omega) hsz
    refine ⟨⟨s.messages P (2 ^ k) :: out.rounds, d⁻¹ :: out.challenges, d :: out.challengesInv, out.vecs,
      out.tr⟩, ?_, ?_⟩
    · rw [gipaLoop, if_neg (by rw [hs2.a]; omega)]
      simp only [gipaRound_eq P s (2 ^ k) hn hs2, Option.bind_eq_bind, Option.bind_some, hd, hfold, hout]
    · have hpow : 2 ^ (k + 1) = 2 * 2 ^ k := by rw [pow_succ, mul_comm]
      have hlI : out.challengesInv.length = k := by rw [R.inv, List.length_map, R.len]
      refine ⟨by simp [R.rounds], by simp [R.len], by simp [R.inv], ?_, R.sized, ?_, ?_, ?_, ?_, ?_, ?_, ?_⟩
      · intro x hx
        rcases List.mem_cons.mp hx with rfl | hx
        · exact inv_ne_zero hd0
        · exact R.ne x hx
      · simp only [gipaChallenges, Option.bind_eq_bind, hd, Option.bind_some, R.replay]
      · simp only [List.zip_cons_cons, List.foldl_cons]
        rw [← tuz_folded P s (2 ^ k) hs2 d⁻¹ d (inv_mul_cancel₀ hd0)]
        exact R.tuz
      · intro x m h
        rw [R.r x ((1 + d * x ^ 2 ^ k) • m) (by rw [← powerKey_fold, ← hpow, ← h]; rfl), foldFactor, hlI,
          smul_smul, mul_comm]
      · intro x m h
        rw [R.va x ((1 + d * x ^ 2 ^ k) • m) (by rw [← powerKey_fold, ← hpow, ← h]; rfl), foldFactor, hlI,
          smul_smul, mul_comm]
      · intro x m h
        rw [R.vb x ((1 + d * x ^ 2 ^ k) • m) (by rw [← powerKey_fold, ← hpow, ← h]; rfl), foldFactor, hlI,
          smul_smul, mul_comm]
      · intro x m h
        rw [R.wa x ((1 + d⁻¹ * x ^ 2 ^ k) • m) (by rw [← powerKey_fold, ← hpow, ← h]; rfl), foldFactor,
          R.len, smul_smul, mul_comm]
      · intro x m h
        rw [R.wb x ((1 + d⁻¹ * x ^ 2 ^ k) • m) (by rw [← powerKey_fold, ← hpow, ← h]; rfl), foldFactor,
          R.len, smul_smul, mul_comm]

end Crypto3Zk
