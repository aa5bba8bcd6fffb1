import Verif.Lemmas.Groth16AggregateVerify
import Mathlib.Tactic.Module

/-!
# Lemmas: the honest aggregator of Groth16 proofs
-/

set_option linter.unusedSectionVars false

namespace Crypto3Zk

variable {F : Type} [Field F] {G1 G2 GT : Type} [AddCommGroup G1] [Module F G1] [AddCommGroup G2]
  [Module F G2] [AddCommGroup GT] [Module F GT]

/-! ## The reference string -/

theorem isPow2_iff (n : Nat) : isPow2 n = true ↔ ∃ k, n = 2 ^ k := by
  have := Nat.ne_zero_and_sub_one_eq_zero_iff_isPowerOfTwo (n := n)
  rw [isPow2, Bool.and_eq_true, decide_eq_true_iff, beq_iff_eq, Nat.pos_iff_ne_zero, this]
  rfl

/-- the proving part of the reference string for `n` proofs, with the trapdoors -/
def honestProvingSrs (P : Pairing F G1 G2 GT) (n : Nat) (alpha beta : F) : AggProvingSrs G1 G2 :=
  ⟨n, powerKey alpha P.one1 (2 * n), powerKey alpha P.one2 n, powerKey beta P.one1 (2 * n),
    powerKey beta P.one2 n, ⟨powerKey alpha P.one2 n, powerKey beta P.one2 n⟩,
    ⟨powerKey alpha (alpha ^ n • P.one1) n, powerKey beta (beta ^ n • P.one1) n⟩⟩

/-- the verification part of the reference string for `n` proofs, with the trapdoors -/
def honestVerificationSrs (P : Pairing F G1 G2 GT) (n : Nat) (alpha beta : F) : AggVerificationSrs G1 G2 :=
  ⟨n, P.one1, P.one2, alpha • P.one1, beta • P.one1, alpha • P.one2, beta • P.one2⟩

theorem slice_powerKey {G : Type} [AddCommGroup G] [Module F G] (s : F) (g : G) {m n : Nat} (h : m ≤ n) :
    slice (powerKey s g n) 0 m = some (powerKey s g m) := by
  rw [slice_left _ _ (by simpa using h), powerKey_take s g h]

theorem slice_powerKey_from {G : Type} [AddCommGroup G] [Module F G] (s : F) (g : G) {m n : Nat}
    (h : 2 * m ≤ n) : slice (powerKey s g n) m (2 * m) = some (powerKey s (s ^ m • g) m) := by
  rw [slice, if_pos ⟨by omega, by simpa using h⟩, powerKey_drop s g (by omega),
    powerKey_take s _ (by omega), show 2 * m - m = m by omega]

theorem specialize_eq (P : Pairing F G1 G2 GT) (N n : Nat) (alpha beta : F) (hp : isPow2 n = true)
    (hN : n ≤ N) : ∃ s, aggSetup P N alpha beta = some s ∧
      s.specialize n = some (honestProvingSrs P n alpha beta, honestVerificationSrs P n alpha beta) := by
  have hn : 0 < n := by
    rw [isPow2, Bool.and_eq_true, decide_eq_true_iff] at hp
    exact hp.1
  refine ⟨⟨powerKey alpha P.one1 (2 * N), powerKey alpha P.one2 (2 * N), powerKey beta P.one1 (2 * N),
    powerKey beta P.one2 (2 * N)⟩, ?_, ?_⟩
  · simp only [aggSetup, structuredGenerators, show 0 < 2 * N by omega, if_true]
    rfl
  · unfold AggSrs.specialize
    dsimp only
    rw [if_pos ⟨hp, by simp; omega, by simp; omega, by simp; omega, by simp; omega⟩]
    refine bind_to (slice_powerKey _ _ (by omega)) ?_
    refine bind_to (slice_powerKey _ _ (by omega)) ?_
    refine bind_to (a := ()) (by simp [CKey.hasLen]) ?_
    refine bind_to (slice_powerKey_from _ _ (by omega)) ?_
    refine bind_to (slice_powerKey_from _ _ (by omega)) ?_
    refine bind_to (a := ()) (by simp [CKey.hasLen]) ?_
    refine bind_to (slice_powerKey _ _ (by omega)) ?_
    refine bind_to (slice_powerKey _ _ (by omega)) ?_
    refine bind_to (slice_powerKey _ _ (by omega)) ?_
    refine bind_to (slice_powerKey _ _ (by omega)) ?_
    refine bind_to (powerKey_get _ _ _ 0 (by omega)) ?_
    refine bind_to (powerKey_get _ _ _ 0 (by omega)) ?_
    refine bind_to (powerKey_get _ _ _ 1 (by omega)) ?_
    refine bind_to (powerKey_get _ _ _ 1 (by omega)) ?_
    refine bind_to (powerKey_get _ _ _ 1 (by omega)) ?_
    refine bind_to (powerKey_get _ _ _ 1 (by omega)) ?_
    simp only [pow_zero, one_smul, pow_one]
    rfl

/-! ## Sums -/

/-- `Σ_i r^i f(i)` over a list -/
def powerSum {G α : Type} [AddCommGroup G] [Module F G] (r : F) (l : List α) (f : α → G) : G :=
  ∑ i : Fin l.length, r ^ (i : Nat) • f l[i]

theorem powerSum_cons {G α : Type} [AddCommGroup G] [Module F G] (r : F) (x : α) (l : List α) (f : α → G) :
    powerSum r (x :: l) f = f x + r • powerSum r l f := by
  unfold powerSum
  refine (Fin.sum_univ_succ (n := l.length) (fun i => r ^ (i : Nat) • f (x :: l)[i])).trans ?_
  simp only [Fin.val_zero, pow_zero, one_smul, Fin.val_succ, Finset.smul_sum, smul_smul, pow_succ']
  rfl

theorem bsum_powers {A B C : Type} [AddCommGroup A] [Module F A] [AddCommGroup B] [Module F B]
    [AddCommGroup C] [Module F C] (f : A →ₗ[F] B →ₗ[F] C) (r : F) {α : Type} (l : List α) (a : α → A)
    (b : α → B) (m : F) :
    bsum f (l.map a) (List.zipWith (fun x s => s • x) (l.map b) (powerKey r m l.length)) =
      m • powerSum r l fun x => f (a x) (b x) := by
  induction l generalizing m with
  | nil => simp [bsum, powerSum]
  | cons x l ih =>
    have := ih (r • m)
    simp only [bsum] at this
    simp only [bsum, List.map_cons, List.length_cons, powerKey, List.zipWith_cons_cons, List.sum_cons, this,
      powerSum_cons, map_smul]
    rw [smul_eq_mul]
    module

theorem bsum_smul_powers {G : Type} [AddCommGroup G] [Module F G] (r : F) {α : Type} (l : List α)
    (c : α → G) (m : F) :
    bsum (smulMap F G) (l.map c) (powerKey r m l.length) = m • powerSum r l c := by
  induction l generalizing m with
  | nil => simp [bsum, powerSum]
  | cons x l ih =>
    have := ih (r • m)
    simp only [bsum] at this
    simp only [bsum, List.map_cons, List.length_cons, powerKey, List.zipWith_cons_cons, List.sum_cons, this,
      powerSum_cons]
    simp only [smulMap, LinearMap.flip_apply, LinearMap.lsmul_apply, smul_eq_mul]
    module

theorem bsum_cancel {A B C : Type} [AddCommGroup A] [Module F A] [AddCommGroup B] [Module F B]
    [AddCommGroup C] [Module F C] (f : A →ₗ[F] B →ₗ[F] C) (s : List F) (hs : ∀ x ∈ s, x ≠ 0)
    (w : List A) (b : List B) (hw : w.length = s.length) (hb : b.length = s.length) :
    bsum f (List.zipWith (fun x g => x • g) (s.map fun x => x⁻¹) w) (List.zipWith (fun x s => s • x) b s) =
      bsum f w b := by
  induction s generalizing w b with
  | nil => simp_all [bsum]
  | cons x s ih =>
    obtain ⟨y, w, rfl⟩ := List.exists_cons_of_length_eq_add_one hw
    obtain ⟨z, b, rfl⟩ := List.exists_cons_of_length_eq_add_one hb
    have := ih (fun y hy => hs y (List.mem_cons_of_mem _ hy)) w b (by simpa using hw) (by simpa using hb)
    simp only [bsum] at this
    simp only [bsum, List.map_cons, List.zipWith_cons_cons, List.sum_cons, this, map_smul,
      LinearMap.smul_apply, smul_smul]
    rw [mul_inv_cancel₀ (hs x List.mem_cons_self), one_smul]

/-! ## The aggregator -/

theorem onlyElement_of_length {α : Type} (l : List α) (h : l.length = 1) :
    ∃ x, l = [x] ∧ onlyElement l = some x := by
  obtain ⟨x, rfl⟩ := List.length_eq_one_iff.mp h
  exact ⟨x, rfl, rfl⟩

theorem bsum_singleton {A B C : Type} [AddCommGroup A] [Module F A] [AddCommGroup B] [Module F B]
    [AddCommGroup C] [Module F C] (f : A →ₗ[F] B →ₗ[F] C) (a : A) (b : B) : bsum f [a] [b] = f a b := by
  simp [bsum]

theorem defects_zero (P : Pairing F G1 G2 GT) (n : Nat) (alpha beta : F) (p : AggProof G1 G2 GT) (r : F)
    (xs : List F) (z va vb qa qb wa wb ra rb : F)
    (hv : p.gipa.finalVkey = (va • P.one2, vb • P.one2)) (hov : p.vkeyOpening = (qa • P.one2, qb • P.one2))
    (hqa : (alpha - z) * qa = va - foldFactor (xs.map (·⁻¹)) z)
    (hqb : (beta - z) * qb = vb - foldFactor (xs.map (·⁻¹)) z)
    (hw : p.gipa.finalWkey = (wa • P.one1, wb • P.one1)) (how : p.wkeyOpening = (ra • P.one1, rb • P.one1))
    (hra : (alpha - z) * ra = wa - foldFactor xs (z * r⁻¹) * z ^ n)
    (hrb : (beta - z) * rb = wb - foldFactor xs (z * r⁻¹) * z ^ n)
    (t1 : P.e p.gipa.finalA p.gipa.finalVkey.1 + P.e p.gipa.finalWkey.1 p.gipa.finalB =
      combinedValue p.comAB.1 (p.gipa.commsAB.map fun c => (c.1.1, c.2.1)) xs)
    (t2 : P.e p.gipa.finalA p.gipa.finalVkey.2 + P.e p.gipa.finalWkey.2 p.gipa.finalB =
      combinedValue p.comAB.2 (p.gipa.commsAB.map fun c => (c.1.2, c.2.2)) xs)
    (t3 : P.e p.gipa.finalA p.gipa.finalB = combinedValue p.ipAB p.gipa.zAB xs)
    (t4 : P.e p.gipa.finalC p.gipa.finalVkey.1 =
      combinedValue p.comC.1 (p.gipa.commsC.map fun c => (c.1.1, c.2.1)) xs)
    (t5 : P.e p.gipa.finalC p.gipa.finalVkey.2 =
      combinedValue p.comC.2 (p.gipa.commsC.map fun c => (c.1.2, c.2.2)) xs) :
    ∀ d ∈ aggDefect P (honestVerificationSrs P n alpha beta) p r xs z, d = 0 := by
  simp only [aggDefect, List.forall_mem_cons, sub_eq_zero]
  refine ⟨?_, ?_, ?_, ?_, t3, t1, t2, t4, t5, by simp⟩
  · rw [hv, hov]
    simp only [honestVerificationSrs, ← sub_smul, map_smul, LinearMap.smul_apply, smul_smul]
    rw [mul_comm, hqa]
  · rw [hv, hov]
    simp only [honestVerificationSrs, ← sub_smul, map_smul, LinearMap.smul_apply, smul_smul]
    rw [mul_comm, hqb]
  · rw [hw, how]
    simp only [honestVerificationSrs, ← sub_smul, map_smul, LinearMap.smul_apply, smul_smul]
    rw [hra]
  · rw [hw, how]
    simp only [honestVerificationSrs, ← sub_smul, map_smul, LinearMap.smul_apply, smul_smul]
    rw [hrb]

/-- The honest aggregator, whatever the proofs are. -/
theorem aggregateProofs_run [DecidableEq F] [DecidableEq GT] (P : Pairing F G1 G2 GT)
    (H : AggHash F G1 G2 GT) (hH : ∀ tr, ∃ x, H.read tr = some x) (k : Nat) (hk : 1 ≤ k) (alpha beta : F)
    (incl : List UInt8) (proofs : List (Groth16Proof G1 G2)) (hp : proofs.length = 2 ^ k) :
    ∃ p r xs z, aggregateProofs P H (honestProvingSrs P (2 ^ k) alpha beta) incl proofs = some p ∧
      AggChallenges H p incl r xs z ∧ xs.length = k ∧
      (∀ d ∈ aggDefect P (honestVerificationSrs P (2 ^ k) alpha beta) p r xs z, d = 0) ∧
      foldFactor (xs.map (·⁻¹)) r • p.gipa.finalC = combinedValue p.aggC p.gipa.zC xs ∧
      p.ipAB = powerSum r proofs (fun π => P.e π.gA π.gB) ∧
      p.aggC = powerSum r proofs (fun π => π.gC) := by
  have hn2 : 2 ≤ 2 ^ k := by
    calc 2 = 2 ^ 1 := rfl
      _ ≤ 2 ^ k := Nat.pow_le_pow_right (by omega) hk
  generalize hn : 2 ^ k = n at hp hn2
  have hpow : isPow2 n = true := (isPow2_iff n).mpr ⟨k, hn.symm⟩
  set a := proofs.map Groth16Proof.gA with ha
  set b := proofs.map Groth16Proof.gB with hb
  set c := proofs.map Groth16Proof.gC with hc
  have la : a.length = n := by simp [ha, hp]
  have lb : b.length = n := by simp [hb, hp]
  have lc : c.length = n := by simp [hc, hp]
  set srs := honestProvingSrs P n alpha beta with hsrs
  have lva : srs.vkey.a.length = n := by simp [hsrs, honestProvingSrs]
  have lvb : srs.vkey.b.length = n := by simp [hsrs, honestProvingSrs]
  have lwa : srs.wkey.a.length = n := by simp [hsrs, honestProvingSrs]
  have lwb : srs.wkey.b.length = n := by simp [hsrs, honestProvingSrs]
  have hcomAB := ippPair_eq P srs.vkey srs.wkey a b n la lb lva lvb lwa lwb
  have hcomC := ippSingle_eq P srs.vkey c n lc lva lvb
  generalize hAB : (bsum P.e a srs.vkey.a + bsum P.e srs.wkey.a b,
    bsum P.e a srs.vkey.b + bsum P.e srs.wkey.b b) = comAB at hcomAB
  generalize hC : (bsum P.e c srs.vkey.a, bsum P.e c srs.vkey.b) = comC at hcomC
  obtain ⟨r, hr⟩ := hH (H.writeStart comAB comC incl)
  have hr0 := (read_ne H _ _ hr).1
  set rVec := powerKey r (1 : F) n with hrVec
  have lr : rVec.length = n := by simp [hrVec]
  have hsp : scalarPowers proofs.length r = rVec := by rw [hp, scalarPowers_eq n (by omega)]
  set bR := List.zipWith (fun x s => s • x) b rVec with hbR
  have lbR : bR.length = n := by simp [hbR, lb, lr]
  have hip := innerPairing_eq P a bR (by omega)
  have hag := multiexp_bsum c rVec (by omega)
  have hipv : bsum P.e a bR = powerSum r proofs (fun π => P.e π.gA π.gB) := by
    rw [ha, hbR, hb, hrVec, ← hp, bsum_powers, one_smul]
  have hagv : bsum (smulMap F G1) c rVec = powerSum r proofs (fun π => π.gC) := by
    rw [hc, hrVec, ← hp, bsum_smul_powers, one_smul]
  have hne : ∀ x ∈ rVec, x ≠ 0 := by
    intro x hx
    obtain ⟨i, hi⟩ := List.mem_iff_getElem?.mp hx
    have hi' : i < n := by
      rw [← lr]; exact (List.getElem?_eq_some_iff.mp hi).1
    rw [hrVec, powerKey_get r (1 : F) n i hi', Option.some.injEq] at hi
    rw [← hi]
    simpa using pow_ne_zero i hr0
  set wR : CKey G1 := ⟨List.zipWith (fun x g => x • g) (rVec.map fun x => x⁻¹) srs.wkey.a,
    List.zipWith (fun x g => x • g) (rVec.map fun x => x⁻¹) srs.wkey.b⟩ with hwR
  have hscale : srs.wkey.scale (rVec.map fun x => x⁻¹) = some wR := by
    rw [CKey.scale, if_pos (by simp [CKey.hasLen, lwa, lwb, lr])]
  have lwRa : wR.a.length = n := by simp [hwR, lwa, lr]
  have lwRb : wR.b.length = n := by simp [hwR, lwb, lr]
  have hc1 : bsum P.e wR.a bR = bsum P.e srs.wkey.a b := bsum_cancel P.e rVec hne _ _ (by omega) (by omega)
  have hc2 : bsum P.e wR.b bR = bsum P.e srs.wkey.b b := bsum_cancel P.e rVec hne _ _ (by omega) (by omega)
  have hagain : ippPair P srs.vkey wR a bR = some comAB := by
    rw [ippPair_eq P srs.vkey wR a bR n la lbR lva lvb lwRa lwRb, hc1, hc2, hAB]
  have hwRa : wR.a = powerKey (r⁻¹ * alpha) (alpha ^ n • P.one1) n := by
    have := powerKey_scale r (1 : F) alpha (alpha ^ n • P.one1) n
    rw [inv_one, one_smul] at this
    exact this
  have hwRb : wR.b = powerKey (r⁻¹ * beta) (beta ^ n • P.one1) n := by
    have := powerKey_scale r (1 : F) beta (beta ^ n • P.one1) n
    rw [inv_one, one_smul] at this
    exact this
  -- the recursion
  set s : GipaVecs F G1 G2 := ⟨a, bR, c, rVec, srs.vkey, wR⟩ with hs
  have hsz : s.Sized (2 ^ k) := by
    rw [hn]; exact ⟨la, lbR, lc, lr, lva, lvb, lwRa, lwRb⟩
  set tr0 := H.writeStart comAB comC incl ++ H.bytesGT (bsum P.e a bR) ++
    H.bytesG1 (bsum (smulMap F G1) c rVec) with htr0
  obtain ⟨out, hout, R⟩ := gipaLoop_run P H hH k n s (tr0 ++ tagGipa)
    (by rw [← hn]; exact Nat.lt_two_pow_self.le) hsz
  obtain ⟨d0, hd0⟩ := hH (tr0 ++ tagGipa)
  obtain ⟨fa, efa, ofa⟩ := onlyElement_of_length _ R.sized.a
  obtain ⟨fb, efb, ofb⟩ := onlyElement_of_length _ R.sized.b
  obtain ⟨fc, efc, ofc⟩ := onlyElement_of_length _ R.sized.c
  have erf : out.vecs.r = [foldFactor out.challengesInv r • (1 : F)] := R.r r 1 (by rw [hn])
  have eva : out.vecs.vkey.a = [foldFactor out.challengesInv alpha • P.one2] :=
    R.va alpha P.one2 (by rw [hn]; rfl)
  have evb : out.vecs.vkey.b = [foldFactor out.challengesInv beta • P.one2] :=
    R.vb beta P.one2 (by rw [hn]; rfl)
  have ewa : out.vecs.wkey.a = [foldFactor out.challenges (r⁻¹ * alpha) • alpha ^ n • P.one1] :=
    R.wa _ _ (by rw [hn]; exact hwRa)
  have ewb : out.vecs.wkey.b = [foldFactor out.challenges (r⁻¹ * beta) • beta ^ n • P.one1] :=
    R.wb _ _ (by rw [hn]; exact hwRb)
  set xs := out.challenges with hxs
  have hxk : xs.length = k := R.len
  have hxne : xs ≠ [] := by
    intro h; rw [h] at hxk; simp at hxk; omega
  have hinv : out.challengesInv = xs.map (·⁻¹) := R.inv
  have hinvne : xs.map (·⁻¹) ≠ [] := by simpa using hxne
  set fv : G2 × G2 := (foldFactor out.challengesInv alpha • P.one2, foldFactor out.challengesInv beta • P.one2)
    with hfv
  set fw : G1 × G1 := (foldFactor xs (r⁻¹ * alpha) • alpha ^ n • P.one1,
    foldFactor xs (r⁻¹ * beta) • beta ^ n • P.one1) with hfw
  set gp : GipaProof G1 G2 GT := ⟨n, out.rounds.map fun m => (m.tabL, m.tabR),
    out.rounds.map fun m => (m.tucL, m.tucR), out.rounds.map fun m => (m.zabL, m.zabR),
    out.rounds.map fun m => (m.zcL, m.zcR), fa, fb, fc, fv, fw⟩ with hgp
  have hgipa : gipaProve P H tr0 s = some (gp, xs, out.challengesInv, out.tr) := by
    unfold gipaProve
    dsimp only
    rw [la, if_pos ⟨hn2, hpow, lbR.symm, lr.symm, lc.symm⟩]
    refine bind_to hd0 ?_
    refine bind_to hout ?_
    refine bind_to ofa ?_
    refine bind_to ofb ?_
    refine bind_to ofc ?_
    rw [erf, eva, evb, ewa, ewb]
    rfl
  obtain ⟨cl, hcl⟩ : ∃ cl, xs.getLast? = some cl := ⟨_, List.getLast?_eq_some_getLast hxne⟩
  have hc0 : xs.reverse[0]? = some cl := by
    rw [← List.head?_eq_getElem?, List.head?_reverse]; exact hcl
  obtain ⟨z, hz⟩ := hH (H.writeFinal out.tr cl gp.finalVkey gp.finalWkey)
  -- the openings
  have hiv : ∀ x ∈ out.challengesInv, x ≠ 0 := by
    rw [hinv]
    intro x hx
    obtain ⟨y, hy, rfl⟩ := List.mem_map.mp hx
    exact inv_ne_zero (R.ne y hy)
  obtain ⟨tv1, tv2, tv3⟩ := transcriptCoefficients_spec out.challengesInv (1 : F)
  obtain ⟨lcv, hlcv, hlcv0⟩ := tv3 hiv one_ne_zero
  obtain ⟨pc1, pc2⟩ := polyCondense_eq _ _ hlcv hlcv0
  have hlenv : (transcriptCoefficients out.challengesInv.reverse (1 : F)).length = n := by
    rw [tv1, hinv, List.length_map, hxk, hn]
  obtain ⟨qa, qb, hqv, hqa, hqb⟩ := proveKeyOpening_spec alpha beta P.one2 _ n hlenv hn2 z _ rfl
  have hov : proveCommitmentV srs.hAlpha srs.hBeta out.challengesInv.reverse z =
      some (qa • P.one2, qb • P.one2) := by
    unfold proveCommitmentV
    dsimp only
    rw [pc1]
    refine bind_to (a := ()) (by simp [pc2]) ?_
    refine bind_to (productForm_reverse _ (by rw [hinv]; exact hinvne) z 1) ?_
    rw [← tv2 z]
    exact hqv
  obtain ⟨tw1, tw2, -⟩ := transcriptCoefficients_spec xs r⁻¹
  have hwe : ∀ y, evalPoly (List.replicate n 0 ++ transcriptCoefficients xs.reverse r⁻¹) y =
      foldFactor xs (y * r⁻¹) * y ^ n := by
    intro y
    have h0 : ∀ m, evalPoly (List.replicate m (0 : F)) y = 0 := by
      intro m
      induction m with
      | zero => rfl
      | succ m ih => rw [List.replicate_succ, evalPoly_cons, ih]; ring
    rw [evalPoly_append, h0, tw2, List.length_replicate]
    ring
  have hlenw : (List.replicate n 0 ++ transcriptCoefficients xs.reverse r⁻¹).length = 2 * n := by
    rw [List.length_append, tw1, hxk, hn, List.length_replicate]; omega
  obtain ⟨ra, rb, hrw, hra, hrb⟩ := proveKeyOpening_spec alpha beta P.one1 _ (2 * n) hlenw (by omega) z _ rfl
  have how : proveCommitmentW srs.gAlpha srs.gBeta xs.reverse r⁻¹ z = some (ra • P.one1, rb • P.one1) := by
    have hg : srs.gBeta.length / 2 = n := by simp [hsrs, honestProvingSrs]
    unfold proveCommitmentW
    dsimp only
    rw [hg]
    refine bind_to (a := ()) (by simp [hsrs, honestProvingSrs]) ?_
    refine bind_to (productForm_reverse _ hxne z r⁻¹) ?_
    rw [← hwe z]
    exact hrw
  have hr1 : rVec[1]? = some r := by
    rw [hrVec, powerKey_get r (1 : F) n 1 (by omega)]; simp
  set p : AggProof G1 G2 GT := ⟨comAB, comC, bsum P.e a bR, bsum (smulMap F G1) c rVec, gp,
    (qa • P.one2, qb • P.one2), (ra • P.one1, rb • P.one1)⟩ with hpdef
  have hrounds : gp.rounds = some out.rounds := by
    unfold GipaProof.rounds
    rw [if_pos (by simp [hgp])]
    congr 1
    refine List.ext_getElem (by simp [hgp]) fun i _ _ => ?_
    simp [hgp]
  have hguard : 2 ≤ proofs.length ∧ isPow2 proofs.length = true ∧ srs.vkey.hasLen proofs.length = true ∧
      srs.wkey.hasLen proofs.length = true := by
    rw [hp]
    refine ⟨hn2, hpow, ?_, ?_⟩
    · rw [CKey.hasLen, lva, lvb]; simp
    · rw [CKey.hasLen, lwa, lwb]; simp
  -- the folded values
  have htuz : out.vecs.tuz P = (s.tuz P).combined out.rounds xs := by
    rw [R.tuz, hinv, foldl_step]
  simp only [GipaVecs.tuz, GipaTuz.combined, efa, efb, efc, erf, eva, evb, ewa, ewb, bsum_singleton,
    GipaTuz.mk.injEq] at htuz
  obtain ⟨t1, t2, t3, t4, t5, t6⟩ := htuz
  have hcab1 : bsum P.e s.a s.vkey.a + bsum P.e s.wkey.a s.b = comAB.1 := by
    rw [← hAB]; show _ + bsum P.e wR.a bR = _; rw [hc1]
  have hcab2 : bsum P.e s.a s.vkey.b + bsum P.e s.wkey.b s.b = comAB.2 := by
    rw [← hAB]; show _ + bsum P.e wR.b bR = _; rw [hc2]
  have hcc1 : bsum P.e s.c s.vkey.a = comC.1 := by rw [← hC]
  have hcc2 : bsum P.e s.c s.vkey.b = comC.2 := by rw [← hC]
  rw [hcab1] at t1
  rw [hcab2] at t2
  rw [hcc1] at t4
  rw [hcc2] at t5
  refine ⟨p, r, xs, z, ?_, ?_, hxk, ?_, ?_, hipv, hagv⟩
  · unfold aggregateProofs
    dsimp only
    rw [if_pos hguard]
    refine bind_to hcomAB ?_
    refine bind_to hcomC ?_
    refine bind_to hr ?_
    rw [hsp]
    refine bind_to hip ?_
    refine bind_to hag ?_
    refine bind_to hscale ?_
    refine bind_to (a := (gp, (qa • P.one2, qb • P.one2), (ra • P.one1, rb • P.one1))) ?_ ?_
    · unfold proveTippMipp
      refine bind_to hr1 ?_
      refine bind_to hgipa ?_
      dsimp only
      refine bind_to hc0 ?_
      refine bind_to hz ?_
      refine bind_to hov ?_
      refine bind_to how ?_
      rfl
    · dsimp only
      refine bind_to hagain ?_
      refine bind_to (a := ()) (by simp) ?_
      rfl
  · refine ⟨hr, out.rounds, out.tr, cl, hrounds, ?_, hcl, hz⟩
    rw [← hinv]
    exact R.replay
  · refine defects_zero P n alpha beta p r xs z _ _ qa qb _ _ ra rb rfl rfl ?_ ?_
      (Prod.ext (smul_smul _ _ _) (smul_smul _ _ _)) rfl ?_ ?_ ?_ ?_ ?_ ?_ ?_
    · rw [hqa, tv2, tv2, mul_one, mul_one, hinv]
    · rw [hqb, tv2, tv2, mul_one, mul_one, hinv]
    · rw [hra, hwe, hwe, mul_comm r⁻¹ alpha]
    · rw [hrb, hwe, hwe, mul_comm r⁻¹ beta]
    · refine t1.trans ?_
      rw [hpdef, hgp]
      simp only [List.map_map]
      rfl
    · refine t2.trans ?_
      rw [hpdef, hgp]
      simp only [List.map_map]
      rfl
    · exact t3
    · refine t4.trans ?_
      rw [hpdef, hgp]
      simp only [List.map_map]
      rfl
    · refine t5.trans ?_
      rw [hpdef, hgp]
      simp only [List.map_map]
      rfl
  · rw [← hinv]
    refine Eq.trans ?_ t6
    simp [smulMap, hpdef, hgp]

end Crypto3Zk
