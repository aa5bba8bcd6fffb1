import Verif.Lemmas.KimchiVerifier
import Mathlib.Data.List.Forall2

/-!
# C82, C83, C84: the Kimchi verifier
-/

set_option linter.unusedSectionVars false

namespace Crypto3Zk

open Finset

variable {F : Type} [Field F] [DecidableEq F] {G : Type} [AddCommGroup G] [Module F G] [DecidableEq G]
variable {S R : Type}

/-! ## The oracles -/

private theorem absorb_values (sp : KimchiSponges F G S R) (st : R) (e : KEvals (List F))
    (h : e.lookupUsed = false) :
    absorbEvaluations sp st [] e = ([[], e.z, e.genericSelector, e.poseidonSelector] ++ List.ofFn e.w ++
      List.ofFn e.s).foldl sp.frAbsorbs st := by
  rw [absorbEvaluations]
  simp only [h, Bool.false_eq_true, if_false]
  rw [foldl_finRange_ofFn e.s, foldl_finRange_ofFn e.w, List.foldl_append, List.foldl_append]
  rfl

/-- the oracles of a proof without public input and lookups -/
private theorem oracles_eq (sp : KimchiSponges F G S R) (idx : KIndex F G) (p : KProof F G)
    (hp : p.publicInput = []) (hl : idx.lookupIndexUsed = false) (hl' : p.lookupUsed = false)
    (h0 : p.evals0.lookupUsed = false) (h1 : p.evals1.lookupUsed = false) :
    kimchiOracles sp idx p ⟨[], 0⟩ = (do
      let c := kimchiChallenges sp p
      let zetaw := c.zeta * idx.domain.omega
      let e0 ← p.evals0.combine (c.zeta ^ idx.maxPolySize)
      let e1 ← p.evals1.combine (zetaw ^ idx.maxPolySize)
      let alphaPowers ← (idx.powersOfAlpha.instantiate c.alpha).getAlphas .permutation 3
      let ft ← ftEval0 idx e0 e1 0 c.alpha c.beta c.gamma c.zeta (c.zeta ^ idx.domain.size) 0 alphaPowers
      pure { sponge := c.sponge, jointCombiner := 0, beta := c.beta, gamma := c.gamma, alpha := c.alpha,
             zeta := c.zeta, v := c.v, u := c.u, alphas := idx.powersOfAlpha.instantiate c.alpha,
             pEval := [[], []], pow0 := c.zeta ^ idx.maxPolySize, pow1 := zetaw ^ idx.maxPolySize,
             polys := p.prevChallenges.map fun x => (x.2, prevChalEvals idx.maxPolySize
               [(c.zeta, c.zeta ^ idx.maxPolySize), (zetaw, zetaw ^ idx.maxPolySize)] x.1),
             zeta1 := c.zeta ^ idx.domain.size, ftEval0 := ft }) := by
  rw [kimchiOracles]
  simp only [hp, hl, hl', Bool.false_eq_true, if_false, ne_eq, not_true]
  rw [foldl_finRange_ofFn p.wComm (fun st c => sp.absorbGs st c.unshifted)]
  rw [absorb_values sp _ p.evals0 h0, absorb_values sp _ p.evals1 h1, ← List.foldl_append]
  rfl

private theorem publicComm_nil (idx : KIndex F G) (p : KProof F G) (hp : p.publicInput = []) :
    publicComm idx p = some ⟨[], 0⟩ := by
  rw [publicComm, hp]
  rfl

/-! ## C84: previous challenges -/

private theorem diff_eq (pt : F) (b : List F) : ∀ (m n : Nat) (s : F × F), n + m = b.length →
    (List.range' n m).foldl (fun (s : F × F) j => (s.1 + s.2 * b.getD j 0, s.2 * pt)) s =
      (s.1 + s.2 * hornerEval (b.drop n) pt, s.2 * pt ^ m)
  | 0, n, s, h => by
    rw [List.drop_eq_nil_of_le (by omega)]
    simp [hornerEval]
  | m + 1, n, s, h => by
    rw [List.range'_succ, List.foldl_cons, diff_eq pt b m (n + 1) _ (by omega)]
    rw [List.drop_eq_getElem_cons (show n < b.length by omega), List.getD_eq_getElem _ _ (by omega)]
    have : hornerEval (b[n] :: b.drop (n + 1)) pt = b[n] + pt * hornerEval (b.drop (n + 1)) pt := rfl
    rw [this]
    ext
    · simp only
      ring
    · simp only [pow_succ]
      ring

/-- C84: the values used for the challenges of a previous proof are those of the chunks of the polynomial
of these challenges, if it has at most two chunks and fills the first one. -/
theorem C84_previous_challenges_partial (n : Nat) (hn : 0 < n) (chals : List F) (h1 : n ≤ 2 ^ chals.length)
    (h2 : 2 ^ chals.length ≤ 2 * n) (points : List F) :
    prevChalEvals n (points.map fun x => (x, x ^ n)) chals =
      points.map fun x => (List.range (chunkCount n (2 ^ chals.length))).map fun j =>
        chunkEval n (coefRec chals) j x := by
  rw [prevChalEvals, List.map_map]
  apply List.map_congr_left
  intro x _
  simp only [Function.comp_apply]
  have hlen := coefRec_length chals
  have hv := horner_coefRec chals x
  by_cases h : n = 2 ^ chals.length
  · rw [if_pos h, ← h, chunkCount_self n hn]
    simp only [List.range_one, List.map_cons, List.map_nil, chunkEval_eq, zero_mul, List.drop_zero]
    rw [List.take_of_length_le (by omega), hv]
  · rw [if_neg h, bPolyCoefficients_eq, diff_eq _ _ _ _ _ (by omega)]
    have hc : chunkCount n (2 ^ chals.length) = 2 := by
      rw [chunkCount]
      have h3 : 2 ^ chals.length + n - 1 = (2 ^ chals.length - n - 1) + 2 * n := by omega
      rw [h3, Nat.add_mul_div_right _ _ hn, Nat.div_eq_of_lt (by omega)]
    rw [hc]
    simp only [zero_add, one_mul, List.range_succ_eq_map, List.range_zero, List.map_nil, List.map_cons,
      chunkEval_eq, zero_mul, List.drop_zero, Nat.succ_eq_add_one]
    rw [List.take_of_length_le (l := (coefRec chals).drop n) (by rw [List.length_drop]; omega)]
    have hsplit : hornerEval (coefRec chals) x =
        hornerEval ((coefRec chals).take n) x + x ^ n * hornerEval ((coefRec chals).drop n) x := by
      conv_lhs => rw [← List.take_append_drop n (coefRec chals), horner_append, List.length_take,
        min_eq_left (by omega)]
    rw [← hv, hsplit]
    congr 1
    ring

/-- C84 fails for fewer challenges: the polynomial has one chunk, the verifier uses two values, the second
one zero. -/
theorem C84_short_challenges (n : Nat) (chals : List F) (h : 2 ^ chals.length < n) (x : F) :
    chunkCount n (2 ^ chals.length) = 1 ∧
    prevChalEvals n [(x, x ^ n)] chals = [[bPoly chals x, 0]] := by
  have hp : 0 < 2 ^ chals.length := by positivity
  constructor
  · rw [chunkCount]
    have : 2 ^ chals.length + n - 1 = (2 ^ chals.length - 1) + n := by omega
    rw [this, Nat.add_div_right _ (by omega), Nat.div_eq_of_lt (by omega)]
  · rw [prevChalEvals]
    simp only [List.map_cons, List.map_nil]
    rw [if_neg (by omega), show 2 ^ chals.length - n = 0 by omega]
    simp

/-! ## C82: honest proofs -/

private theorem column_comm {sp : KimchiSponges F G S R} {idx : KIndex F G} {p : KProof F G}
    (run : KimchiClaims sp idx p) (joint scalar : F) (col : KColumn) (q : IpaPoly F)
    (h : run.P.column col = some q) :
    ∃ c, indexTermComms idx p joint col scalar = some [(scalar, c)] ∧ Committed idx.srs c q := by
  cases col with
  | witness i =>
    rw [KPolys.column] at h
    split at h
    · next hi =>
      obtain rfl := Option.some.inj h
      exact ⟨_, by rw [indexTermComms, dif_pos hi], run.w _⟩
    · exact absurd h (by simp)
  | coefficient i =>
    rw [KPolys.column] at h
    split at h
    · next hi =>
      obtain rfl := Option.some.inj h
      exact ⟨_, by rw [indexTermComms, dif_pos hi], run.coefficient _⟩
    · exact absurd h (by simp)
  | z =>
    obtain rfl := Option.some.inj h
    exact ⟨_, rfl, run.z⟩
  | index g =>
    have hr := run.rangeCheck
    rw [List.forall₂_cons_right_iff] at hr
    obtain ⟨c0, u0, hc0, hr, e0⟩ := hr
    rw [List.forall₂_cons_right_iff] at hr
    obtain ⟨c1, u1, hc1, -, e1⟩ := hr
    obtain ⟨k0, k1, k2, k3⟩ := run.chaCha
    cases g <;> simp only [KPolys.column, KGate.hasSelector, if_true, Bool.false_eq_true, if_false,
      Option.some.injEq, reduceCtorEq] at h <;> subst h
    · exact ⟨_, rfl, run.poseidon⟩
    · exact ⟨_, rfl, run.completeAdd⟩
    · exact ⟨_, rfl, run.varBaseMul⟩
    · exact ⟨_, rfl, run.endoMul⟩
    · exact ⟨_, rfl, run.endoMulScalar⟩
    · exact ⟨_, rfl, k0⟩
    · exact ⟨_, rfl, k1⟩
    · exact ⟨_, rfl, k2⟩
    · exact ⟨_, rfl, k3⟩
    · exact ⟨c0, by rw [indexTermComms, selectorComm, e0]; rfl, hc0⟩
    · exact ⟨c1, by rw [indexTermComms, selectorComm, e0, e1]; rfl, hc1⟩
  | _ => exact absurd h (by simp [KPolys.column])

private theorem index_comms {sp : KimchiSponges F G S R} {idx : KIndex F G} {p : KProof F G}
    (run : KimchiClaims sp idx p) (env : KEnv F) : ∀ (terms : List (KColumn × KExpr F)) (index : List (F × IpaPoly F)),
    List.Forall₂ (fun t l => (∃ m, t.2.value env [] = some (l.1, m)) ∧ run.P.column t.1 = some l.2) terms index →
    ∃ ts : List (List (F × PolyComm G)), (terms.map fun t => (t.1, t.2.polish)).mapM (fun t => do
        let scalar ← polishEvaluate env t.2
        indexTermComms idx p env.c.jointCombiner t.1 scalar) = some ts ∧
      ts.flatten.map Prod.fst = index.map Prod.fst ∧
      List.Forall₂ (fun c (l : F × IpaPoly F) => Committed idx.srs c l.2) (ts.flatten.map Prod.snd) index
  | [], [], .nil => ⟨[], rfl, rfl, .nil⟩
  | t :: terms, l :: index, .cons ⟨⟨m, hv⟩, hq⟩ hr => by
    obtain ⟨ts, h1, h2, h3⟩ := index_comms run env terms index hr
    obtain ⟨c, h4, h5⟩ := column_comm run env.c.jointCombiner l.1 t.1 l.2 hq
    refine ⟨[(l.1, c)] :: ts, ?_, by simp [h2], ?_⟩
    · rw [List.map_cons, List.mapM_cons, C81_evaluate, hv]
      simp only [Option.map_some, Option.bind_eq_bind, Option.bind_some, h4]
      simp only [Option.bind_eq_bind] at h1
      rw [h1]
      rfl
    · rw [List.flatten_cons, List.map_append]
      exact .cons h5 h3

private theorem linear_comms {sp : KimchiSponges F G S R} {idx : KIndex F G} {p : KProof F G}
    (run : KimchiClaims sp idx p) (o : KOracles F G S) (hz : o.zeta = (kimchiChallenges sp p).zeta)
    (ha : o.alpha = (kimchiChallenges sp p).alpha) (hb : o.beta = (kimchiChallenges sp p).beta)
    (hg : o.gamma = (kimchiChallenges sp p).gamma) (hj : o.jointCombiner = 0)
    (hal : o.alphas.getAlphas .permutation 3 = some [(kimchiChallenges sp p).alpha ^ run.start,
      (kimchiChallenges sp p).alpha ^ (run.start + 1), (kimchiChallenges sp p).alpha ^ (run.start + 2)]) (x : F) :
    ∃ cs f, linearizedComm idx p o (run.P.valuesAt (kimchiChallenges sp p).zeta)
        (run.P.valuesAt ((kimchiChallenges sp p).zeta * idx.domain.omega)) = some f ∧ f.shifted = 0 ∧
      List.Forall₂ (fun c (l : F × IpaPoly F) => Committed idx.srs c l.2) cs
        (run.P.linear sp idx p run.index run.start) ∧
      powSum x f.unshifted = lin ((run.P.linear sp idx p run.index run.start).map Prod.fst)
        (cs.map fun d => powSum x d.unshifted) := by
  obtain ⟨ts, h1, h2, h3⟩ := index_comms run (run.P.env sp idx p) run.terms run.index run.index_eq
  set gen := (List.finRange 10).map fun i : Fin 10 => idx.coefficientsComm (i.castLE (by decide)) with hgen
  have hF : List.Forall₂ (fun c (l : F × IpaPoly F) => Committed idx.srs c l.2)
      ([idx.sigmaComm 6] ++ gen ++ ts.flatten.map Prod.snd) (run.P.linear sp idx p run.index run.start) := by
    rw [KPolys.linear, linearPart]
    refine List.rel_append ?_ h3
    have : gen = [idx.coefficientsComm 0, idx.coefficientsComm 1, idx.coefficientsComm 2,
      idx.coefficientsComm 3, idx.coefficientsComm 4, idx.coefficientsComm 5, idx.coefficientsComm 6,
      idx.coefficientsComm 7, idx.coefficientsComm 8, idx.coefficientsComm 9] := rfl
    rw [this]
    refine .cons (run.sigma _) ?_
    iterate 10 refine .cons (run.coefficient _) ?_
    exact .nil
  have hmem : ∀ d ∈ [idx.sigmaComm 6] ++ gen ++ ts.flatten.map Prod.snd,
      d.unshifted.length = run.chunks ∧ d.shifted = 0 := by
    intro d hd
    obtain ⟨i, hi, rfl⟩ := List.mem_iff_getElem.mp hd
    have hi' : i < (run.P.linear sp idx p run.index run.start).length := by rw [← hF.length_eq]; exact hi
    have hc := List.forall₂_iff_get.mp hF |>.2 i hi hi'
    obtain ⟨-, hs, hl⟩ := Committed.fold hc run.generators x
    exact ⟨hl.trans (run.sameChunks _ (List.getElem_mem hi')), hs⟩
  have hsc : (run.P.linear sp idx p run.index run.start).map Prod.fst =
      [permScalars (run.P.valuesAt (kimchiChallenges sp p).zeta)
        (run.P.valuesAt ((kimchiChallenges sp p).zeta * idx.domain.omega)) o.beta o.gamma
        ((kimchiChallenges sp p).alpha ^ run.start) (hornerEval idx.zkpm o.zeta)] ++
      gnrcScalars ((kimchiChallenges sp p).alpha ^ run.start) ((kimchiChallenges sp p).alpha ^ (run.start + 1))
        (run.P.valuesAt (kimchiChallenges sp p).zeta).w
        (run.P.valuesAt (kimchiChallenges sp p).zeta).genericSelector ++ ts.flatten.map Prod.fst := by
    rw [KPolys.linear, linearPart, List.map_append, h2, permScalars, foldl_mul_finRange, hb, hg, hz,
      ← polyVal_eq]
    rfl
  obtain ⟨f, hf1, hf2, hf3⟩ := multiScalarMul_fold (idx.sigmaComm 6) (gen ++ ts.flatten.map Prod.snd)
    ((run.P.linear sp idx p run.index run.start).map Prod.fst) run.chunks x (by
      rw [List.length_map, ← hF.length_eq]; rfl) (fun d hd => (hmem d hd).1) (fun d hd => (hmem d hd).2)
  refine ⟨_, f, ?_, hf2, hF, hf3⟩
  rw [linearizedComm, hal]
  simp only [Option.bind_eq_bind, Option.bind_some, List.getElem?_cons_zero, List.getElem?_cons_succ]
  rw [run.terms_eq, hj, hz, ha, hb, hg]
  simp only [Option.bind_eq_bind] at h1
  have h1' := h1
  rw [KPolys.env] at h1'
  rw [h1']
  rw [hb, hg, hz] at hsc
  simp only [Option.bind_some]
  rw [← hsc, List.append_assoc]
  exact hf1

private theorem alphas_eq {sp : KimchiSponges F G S R} {idx : KIndex F G} {p : KProof F G}
    (run : KimchiClaims sp idx p) (alpha : F) :
    (idx.powersOfAlpha.instantiate alpha).getAlphas .permutation 3 =
      some [alpha ^ run.start, alpha ^ (run.start + 1), alpha ^ (run.start + 2)] := by
  rw [run.alphas, C60_powers, run.permutation]
  simp only [if_pos run.enough]
  rfl

private theorem forall₂_middle {α β : Type} {R : α → β → Prop} {x : α} {y : β} {B : List α} {B' : List β} :
    ∀ {A : List α} {A' : List β}, A.length = A'.length → List.Forall₂ R (A ++ x :: B) (A' ++ y :: B') → R x y
  | [], [], _, .cons h _ => h
  | _ :: _, _ :: _, hl, .cons _ h => forall₂_middle (by simpa using hl) h

private theorem batch_claims {sp : KimchiSponges F G S R} {idx : KIndex F G} {p : KProof F G}
    (run : KimchiClaims sp idx p) (hsize : 2 * idx.srs.g.length ≤ 2 ^ 64 - 1) :
    ∃ b, kimchiToBatch sp idx p = some b ∧
      (b.sponge = (kimchiChallenges sp p).sponge ∧ b.xi = (kimchiChallenges sp p).v ∧
        b.r = (kimchiChallenges sp p).u ∧ b.opening = p.opening) ∧
      b.points = [(kimchiChallenges sp p).zeta, (kimchiChallenges sp p).zeta * idx.domain.omega] ∧
      (List.Forall₂ (HonestClaim idx.srs b.points) b.evaluation run.opened ↔ run.Satisfied ∧ run.TrueFt) := by
  set c := kimchiChallenges sp p with hc
  have hn := run.generators
  have he0 := combine_true _ hn run.P _ _ run.evals0
  have he1 := combine_true _ hn run.P _ _ run.evals1
  obtain ⟨m, hm⟩ := run.constantValue_eq
  have hconst : polishEvaluate ⟨idx.domain, c.zeta, run.P.valuesAt c.zeta,
      run.P.valuesAt (c.zeta * idx.domain.omega), ⟨c.alpha, c.beta, c.gamma, 0, idx.endo, idx.mds⟩⟩
      idx.constantTerm = some run.constantValue := by
    have := C81_evaluate (run.P.env sp idx p) run.constant
    rw [hm] at this
    rw [run.constant_eq]
    exact this
  have hft := ftEval0_eq idx (run.P.valuesAt c.zeta) (run.P.valuesAt (c.zeta * idx.domain.omega)) c.alpha c.beta
    c.gamma c.zeta (c.zeta ^ idx.domain.size) 0 (c.alpha ^ run.start) (c.alpha ^ (run.start + 1))
    (c.alpha ^ (run.start + 2)) run.constantValue run.zeta_one run.zeta_w hconst
  have heq := equation_iff run.P (run.P.valuesAt c.zeta) (run.P.valuesAt (c.zeta * idx.domain.omega)) idx.shift
    (polyVal idx.zkpm c.zeta) c.beta c.gamma c.zeta (c.zeta ^ idx.domain.size) idx.w (c.alpha ^ run.start)
    (c.alpha ^ (run.start + 1)) (c.alpha ^ (run.start + 2)) run.constantValue run.index
  have hval : polyVal (run.P.ft sp idx p run.index run.start).coeffs c.zeta =
      ((linearPart run.P (run.P.valuesAt c.zeta) (run.P.valuesAt (c.zeta * idx.domain.omega)) c.beta c.gamma
        (polyVal idx.zkpm c.zeta) (c.alpha ^ run.start) (c.alpha ^ (run.start + 1)) run.index).map
          fun l => l.1 * polyVal l.2.coeffs c.zeta).sum -
        (c.zeta ^ idx.domain.size - 1) * polyVal run.P.t.coeffs c.zeta := by
    rw [KPolys.ft, ← hc]
    exact polyVal_ft _ hn _ _ _ _
  rw [← hval] at heq
  generalize hv0 : _ - run.constantValue = v0 at hft heq
  have horacles := oracles_eq sp idx p run.noPublic run.noLookup run.noLookupProof run.evals0.lookup
    run.evals1.lookup
  rw [← hc] at horacles
  simp only [run.size] at horacles
  rw [he0, he1, alphas_eq run c.alpha] at horacles
  simp only [Option.bind_eq_bind, Option.bind_some] at horacles
  rw [hft] at horacles
  simp only [Option.bind_some, Option.pure_def] at horacles
  generalize ho : (KOracles.mk c.sponge 0 c.beta c.gamma c.alpha c.zeta c.v c.u
    (idx.powersOfAlpha.instantiate c.alpha) [[], []] (c.zeta ^ idx.srs.g.length)
    ((c.zeta * idx.domain.omega) ^ idx.srs.g.length) (p.prevChallenges.map fun x =>
      (x.2, prevChalEvals idx.srs.g.length [(c.zeta, c.zeta ^ idx.srs.g.length),
        (c.zeta * idx.domain.omega, (c.zeta * idx.domain.omega) ^ idx.srs.g.length)] x.1))
    (c.zeta ^ idx.domain.size) v0 : KOracles F G S) = o at horacles
  obtain ⟨cs, f, hf1, hf2, hf3, hf4⟩ := linear_comms run o (by rw [← ho]) (by rw [← ho]) (by rw [← ho])
    (by rw [← ho]) (by rw [← ho]) (by rw [← ho]; exact alphas_eq run c.alpha) (c.zeta ^ idx.srs.g.length)
  have hftc : Committed idx.srs (ftComm idx p o f) (run.P.ft sp idx p run.index run.start) := by
    have := ft_committed hn (c.zeta ^ idx.srs.g.length) (c.zeta ^ idx.domain.size) _ cs run.P.t p.tComm f hf3
      run.t hf2 hf4 hsize
    rw [ftComm, ← ho, run.size]
    exact this
  have hlook : lookupEvaluations idx p o.jointCombiner = some [] := by
    rw [lookupEvaluations, run.noLookup]
    rfl
  refine ⟨_, by
    rw [kimchiToBatch, publicComm_nil idx p run.noPublic]
    simp only [Option.bind_eq_bind, Option.bind_some]
    rw [horacles]
    simp only [Option.bind_some]
    rw [show o.pow0 = c.zeta ^ idx.srs.g.length by rw [← ho],
      show o.pow1 = (c.zeta * idx.domain.omega) ^ idx.srs.g.length by rw [← ho], he0, he1]
    simp only [Option.bind_some]
    rw [hf1]
    simp only [Option.bind_some]
    rw [hlook]
    rfl, ?_⟩
  refine ⟨⟨by rw [← ho], by rw [← ho], by rw [← ho], rfl⟩, by rw [← ho], ?_⟩
  simp only [List.append_nil]
  have hpts : [o.zeta, o.zeta * idx.domain.omega] = [c.zeta, c.zeta * idx.domain.omega] := by rw [← ho]
  rw [hpts]
  have two : ∀ (e : PolyComm G) (q : IpaPoly F) (a b : List F), Committed idx.srs e q →
      a = chunkValues idx.srs.g.length q c.zeta →
      b = chunkValues idx.srs.g.length q (c.zeta * idx.domain.omega) →
      HonestClaim idx.srs [c.zeta, c.zeta * idx.domain.omega] ⟨e, [a, b], -1⟩ q := by
    intro e q a b h1 h2 h3
    rw [h2, h3]
    exact h1.honest _
  have h1 : ∀ y, chunkValues idx.srs.g.length (run.P.ft sp idx p run.index run.start) y =
      [polyVal (run.P.ft sp idx p run.index run.start).coeffs y] := by
    intro y
    have hl : (run.P.ft sp idx p run.index run.start).coeffs.length = idx.srs.g.length := by
      simp [KPolys.ft, ftPoly]
    rw [chunkValues, hl, chunkCount_self _ hn, polyVal_eq]
    simp only [List.range_one, List.map_cons, List.map_nil, chunkEval_eq, zero_mul, List.drop_zero]
    rw [List.take_of_length_le hl.le]
  have hftEval : o.ftEval0 = v0 := by rw [← ho]
  have hpolys : o.polys.length = run.prev.length := by
    rw [← ho, ← run.previous.length_eq]
    simp
  constructor
  · intro hall
    rw [KimchiClaims.opened] at hall
    have hm := forall₂_middle (A := o.polys.map (fun c => (⟨c.1, c.2, -1⟩ : IpaEval F G)) ++
      [⟨⟨[], 0⟩, o.pEval, -1⟩]) (A' := run.prev ++ [⟨[], 2 ^ 64 - 1, ⟨[], 0⟩⟩]) (by simp [hpolys])
      (by simpa only [List.append_assoc, List.cons_append, List.nil_append] using hall)
    have he := hm.evaluations
    simp only [List.map_cons, List.map_nil, List.cons.injEq, and_true] at he
    have e0 := he.1.trans (h1 _)
    have e1 := he.2.trans (h1 _)
    simp only [List.cons.injEq, and_true] at e0 e1
    exact ⟨heq.mpr (e0.symm.trans hftEval), e1⟩
  rintro ⟨hsat, htrue⟩
  have hsat' := heq.mp hsat
  rw [KimchiClaims.opened]
  refine List.rel_append (List.rel_append (List.rel_append ?_ ?_) ?_) ?_
  · rw [← ho]
    simp only [List.map_map]
    have hprev := run.previous
    generalize run.prev = prev at hprev ⊢
    generalize p.prevChallenges = pcs at hprev ⊢
    induction hprev with
    | nil => exact .nil
    | @cons x q l l' hx _ ih =>
      refine .cons ?_ ih
      obtain ⟨h1, h2, h3, h4⟩ := hx
      have hp := C84_previous_challenges_partial idx.srs.g.length hn x.1 h3 h4
        [c.zeta, c.zeta * idx.domain.omega]
      simp only [Function.comp_apply]
      have hh := h1.honest [c.zeta, c.zeta * idx.domain.omega]
      have e : [c.zeta, c.zeta * idx.domain.omega].map (chunkValues idx.srs.g.length q) =
          prevChalEvals idx.srs.g.length [(c.zeta, c.zeta ^ idx.srs.g.length),
            (c.zeta * idx.domain.omega, (c.zeta * idx.domain.omega) ^ idx.srs.g.length)] x.1 := by
        refine Eq.trans ?_ hp.symm
        apply List.map_congr_left
        intro y _
        rw [chunkValues, h2, coefRec_length]
      rw [e] at hh
      exact hh
  · refine .cons ?_ (.cons ?_ (.cons ?_ (.cons ?_ (.cons ?_ .nil))))
    · have : Committed idx.srs ⟨[], 0⟩ (⟨[], 2 ^ 64 - 1, ⟨[], 0⟩⟩ : IpaPoly F) := by
        refine ⟨⟨fun _ => 0, 0, ?_⟩, rfl, by simp; omega⟩
        rw [ipaCommit_unbounded _ _ _ _ hn]
        have h0 : chunkCount idx.srs.g.length ([] : List F).length = 0 := by
          rw [chunkCount]
          exact Nat.div_eq_of_lt (by simp; omega)
        rw [h0]
        rfl
      have h0 : chunkCount idx.srs.g.length ([] : List F).length = 0 := by
        rw [chunkCount]
        exact Nat.div_eq_of_lt (by simp; omega)
      rw [← ho]
      exact two _ _ _ _ this (by rw [chunkValues, h0]; rfl) (by rw [chunkValues, h0]; rfl)
    · refine two _ _ _ _ hftc ?_ ?_
      · rw [h1, hftEval, hsat']
      · rw [h1, htrue]
    · exact two _ _ _ _ run.z run.evals0.z run.evals1.z
    · exact two _ _ _ _ run.generic run.evals0.generic run.evals1.generic
    · exact two _ _ _ _ run.poseidon run.evals0.poseidon run.evals1.poseidon
  · rw [List.ofFn_eq_map, List.forall₂_map_left_iff, List.forall₂_map_right_iff, List.forall₂_same]
    intro i _
    exact two _ _ _ _ (run.w i) (run.evals0.w i) (run.evals1.w i)
  · rw [List.ofFn_eq_map, List.forall₂_map_left_iff, List.forall₂_map_right_iff, List.forall₂_same]
    intro i _
    exact two _ _ _ _ (run.sigma _) (run.evals0.s i) (run.evals1.s i)

private theorem honest_batch {sp : KimchiSponges F G S R} {idx : KIndex F G} {p : KProof F G}
    (run : KimchiRun sp idx p) (hsize : 2 * idx.srs.g.length ≤ 2 ^ 64 - 1) :
    ∃ b, kimchiToBatch sp idx p = some b ∧ HonestBatch sp.ipa idx.srs b := by
  obtain ⟨b, h1, ⟨h2, h3, h4, h5⟩, h6, h7⟩ := batch_claims run.toKimchiClaims hsize
  refine ⟨b, h1, by rw [h6]; simp, run.opened, run.rnd, run.d, run.rDelta, h7.mpr ⟨run.equation, run.ftEval1⟩,
    run.random, ?_⟩
  rw [h2, h3, h4, h5, h6]
  exact run.opening

/-- C82, partial: any number of honest proofs for circuits over the same generators is accepted, whatever
random elements the verifier uses, unless a folding challenge is zero. What is missing: public inputs
(`C82_public_input_undefined`) and lookups (`C82_lookups_undefined`), for which there is no verdict. -/
theorem C82_honest_proofs_accepted_partial (sp : KimchiSponges F G S R) (prm : IpaParams G)
    (hsize : 2 * prm.g.length ≤ 2 ^ 64 - 1) (proofs : List (KIndex F G × KProof F G)) (hne : proofs ≠ [])
    (h : ∀ x ∈ proofs, x.1.srs = prm ∧ Nonempty (KimchiRun sp x.1 x.2))
    (hc : ∀ x ∈ proofs, ∀ b, kimchiToBatch sp x.1 x.2 = some b → ∀ v, b.cip prm.g.length = some v →
      ∀ c ∈ b.chals sp.ipa v, c ≠ 0) (rand sgRand : F) :
    kimchiBatchVerify sp rand sgRand proofs = some true := by
  have key : ∀ l : List (KIndex F G × KProof F G), (∀ x ∈ l, x ∈ proofs) →
      ∃ bs, l.mapM (fun x => kimchiToBatch sp x.1 x.2) = some bs ∧
        ∀ b ∈ bs, HonestBatch sp.ipa prm b ∧ ∀ v, b.cip prm.g.length = some v → ∀ c ∈ b.chals sp.ipa v, c ≠ 0 := by
    intro l
    induction l with
    | nil => exact fun _ => ⟨[], rfl, by simp⟩
    | cons x l ih =>
      intro hl
      obtain ⟨bs, h1, h2⟩ := ih fun y hy => hl y (List.mem_cons_of_mem _ hy)
      have hx := hl x (by simp)
      obtain ⟨hs, ⟨run⟩⟩ := h x hx
      obtain ⟨b, h3, h4⟩ := honest_batch run (by rw [hs]; exact hsize)
      refine ⟨b :: bs, by rw [List.mapM_cons, h3, h1]; rfl, ?_⟩
      intro b' hb'
      rcases List.mem_cons.mp hb' with rfl | hb'
      · exact ⟨hs ▸ h4, hc x hx _ h3⟩
      · exact h2 b' hb'
  obtain ⟨bs, h1, h2⟩ := key proofs fun x hx => hx
  obtain ⟨x, rest, rfl⟩ := List.exists_cons_of_ne_nil hne
  rw [kimchiBatchVerify, h1]
  simp only [List.head?_cons, Option.bind_eq_bind, Option.bind_some]
  rw [(h x (by simp)).1]
  exact C75_honest_openings_are_accepted_partial sp.ipa prm bs (fun b hb => (h2 b hb).1)
    (fun b hb => (h2 b hb).2) rand sgRand

/-- C82, partial: from polynomials that satisfy the equation at the challenges, `proof_eval` makes an opening, and
with it the proof is accepted, unless a folding challenge is zero. -/
theorem C82_prover_completes_partial (sp : KimchiSponges F G S R) (idx : KIndex F G) (p : KProof F G)
    (hsize : 2 * idx.srs.g.length ≤ 2 ^ 64 - 1) (c : KimchiClaims sp idx p) (hs : c.Satisfied) (ht : c.TrueFt)
    (rnd : List (F × F)) (d rDelta : F) (hrnd : Nat.clog 2 idx.srs.g.length ≤ rnd.length) :
    ∃ o, ipaProve sp.ipa idx.srs c.opened
        [(kimchiChallenges sp p).zeta, (kimchiChallenges sp p).zeta * idx.domain.omega]
        (kimchiChallenges sp p).v (kimchiChallenges sp p).u rnd d rDelta (kimchiChallenges sp p).sponge = some o ∧
      Nonempty (KimchiRun sp idx { p with opening := o }) ∧
      ((∀ b, kimchiToBatch sp idx { p with opening := o } = some b → ∀ v, b.cip idx.srs.g.length = some v →
          ∀ x ∈ b.chals sp.ipa v, x ≠ 0) →
        ∀ rand sgRand, kimchiVerify sp rand sgRand idx { p with opening := o } = some true) := by
  obtain ⟨b, -, -, h2, h3⟩ := batch_claims c hsize
  obtain ⟨o, h4, -⟩ := C75_prover_succeeds sp.ipa idx.srs b.evaluation c.opened b.points
    (kimchiChallenges sp p).v (kimchiChallenges sp p).u rnd d rDelta (kimchiChallenges sp p).sponge
    (by rw [h2]; simp) (h3.mpr ⟨hs, ht⟩) hrnd
  rw [h2] at h4
  let c' : KimchiClaims sp idx { p with opening := o } :=
    { P := c.P, prev := c.prev, constant := c.constant, terms := c.terms, constantValue := c.constantValue,
      index := c.index, start := c.start, number := c.number, regs := c.regs, chunks := c.chunks, size := c.size,
      generators := c.generators, sigma := c.sigma, coefficient := c.coefficient, generic := c.generic,
      poseidon := c.poseidon, completeAdd := c.completeAdd, varBaseMul := c.varBaseMul, endoMul := c.endoMul,
      endoMulScalar := c.endoMulScalar, chaCha := c.chaCha, rangeCheck := c.rangeCheck, noLookup := c.noLookup,
      constant_eq := c.constant_eq, terms_eq := c.terms_eq, alphas := c.alphas, permutation := c.permutation,
      enough := c.enough, w := c.w, z := c.z, t := c.t, noPublic := c.noPublic, noLookupProof := c.noLookupProof,
      evals0 := c.evals0, evals1 := c.evals1, previous := c.previous, constantValue_eq := c.constantValue_eq,
      index_eq := c.index_eq, sameChunks := c.sameChunks, zeta_one := c.zeta_one, zeta_w := c.zeta_w }
  let run : KimchiRun sp idx { p with opening := o } :=
    { toKimchiClaims := c', rnd := rnd, d := d, rDelta := rDelta, equation := hs, ftEval1 := ht,
      random := hrnd, opening := h4 }
  refine ⟨o, h4, ⟨run⟩, fun hc rand sgRand => ?_⟩
  refine C82_honest_proofs_accepted_partial sp idx.srs hsize [(idx, _)] (by simp) ?_ ?_ rand sgRand
  · intro x hx
    obtain rfl := List.mem_singleton.mp hx
    exact ⟨rfl, ⟨run⟩⟩
  · intro x hx
    obtain rfl := List.mem_singleton.mp hx
    exact hc

private theorem mapM_none {α β : Type} (f : α → Option β) : ∀ (l : List α) (x : α), x ∈ l → f x = none →
    l.mapM f = none
  | y :: l, x, hx, h => by
    rw [List.mapM_cons]
    rcases List.mem_cons.mp hx with rfl | hx
    · rw [h]; rfl
    · rw [mapM_none f l x hx h]
      cases f y <;> rfl

private theorem batch_none (sp : KimchiSponges F G S R) (proofs : List (KIndex F G × KProof F G))
    (x : KIndex F G × KProof F G) (hx : x ∈ proofs) (h : kimchiToBatch sp x.1 x.2 = none) (rand sgRand : F) :
    kimchiBatchVerify sp rand sgRand proofs = none := by
  rw [kimchiBatchVerify, mapM_none _ proofs x hx h]
  cases proofs.head? <;> rfl

/-- C82: a proof with public input has no verdict, alone or among other proofs: the evaluations of the public
input are written into vectors that do not exist. -/
theorem C82_public_input_undefined (sp : KimchiSponges F G S R) (proofs : List (KIndex F G × KProof F G))
    (x : KIndex F G × KProof F G) (hx : x ∈ proofs) (h : x.2.publicInput ≠ []) (rand sgRand : F) :
    kimchiBatchVerify sp rand sgRand proofs = none := by
  refine batch_none sp proofs x hx ?_ rand sgRand
  rw [kimchiToBatch]
  cases publicComm x.1 x.2 with
  | none => rfl
  | some c =>
    simp only [Option.bind_eq_bind, Option.bind_some]
    rw [kimchiOracles]
    simp only [if_pos h]
    rfl

/-- C82: a proof with sorted lookup polynomials has no verdict. -/
theorem C82_lookups_undefined (sp : KimchiSponges F G S R) (proofs : List (KIndex F G × KProof F G))
    (x : KIndex F G × KProof F G) (hx : x ∈ proofs)
    (h : (x.2.evals0.lookupUsed = true ∧ x.2.evals0.lookup.sorted ≠ []) ∨
      (x.2.evals1.lookupUsed = true ∧ x.2.evals1.lookup.sorted ≠ [])) (rand sgRand : F) :
    kimchiBatchVerify sp rand sgRand proofs = none := by
  refine batch_none sp proofs x hx ?_ rand sgRand
  rw [kimchiToBatch]
  cases publicComm x.1 x.2 with
  | none => rfl
  | some c =>
    simp only [Option.bind_eq_bind, Option.bind_some]
    cases kimchiOracles sp x.1 x.2 c with
    | none => rfl
    | some o =>
      simp only [Option.bind_some]
      rcases h with h | h
      · rw [KEvals.combine, if_pos h]
        rfl
      · cases x.2.evals0.combine o.pow0 with
        | none => rfl
        | some e =>
          simp only [Option.bind_some]
          rw [KEvals.combine, if_pos h]
          rfl

/-- C82: verifying no proofs at all reads the first of them. -/
theorem C82_no_proofs_undefined (sp : KimchiSponges F G S R) (rand sgRand : F) :
    kimchiBatchVerify sp rand sgRand ([] : List (KIndex F G × KProof F G)) = none := rfl

/-! ## Soundness -/

/-- **C83** (the part of the public input) The value that the verifier computes for `ft` is the value without
public input, less the value of the polynomial of the public input. -/
theorem C83_public_input_subtracted (idx : KIndex F G) (e0 e1 : KEvals F)
    (p alpha beta gamma zeta zn joint : F) (alphas : List F) :
    ftEval0 idx e0 e1 p alpha beta gamma zeta zn joint alphas =
      (ftEval0 idx e0 e1 0 alpha beta gamma zeta zn joint alphas).map (· - p) := by
  simp only [ftEval0, Option.bind_eq_bind, Option.pure_def]
  cases alphas[0]? <;> cases alphas[1]? <;> cases alphas[2]? <;> try rfl
  simp only [Option.bind_some]
  split
  · rfl
  · cases polishEvaluate _ idx.constantTerm with
    | none => rfl
    | some c =>
      simp only [Option.bind_some, Option.map_some]
      congr 1
      ring

/-- C83, partial: if circuit and proof consist of commitments to polynomials and the evaluations in the
proof are true, then the claims handed to the commitment scheme are all true exactly if the equation of the
protocol holds at the challenges (and the value of `ft` at the second point is true). What is missing: the
commitment scheme does not guarantee that the claims are true (`C83_forgery`). -/
theorem C83_claims_are_the_equation_partial (sp : KimchiSponges F G S R) (idx : KIndex F G) (p : KProof F G)
    (c : KimchiClaims sp idx p) (hsize : 2 * idx.srs.g.length ≤ 2 ^ 64 - 1) :
    ∃ b, kimchiToBatch sp idx p = some b ∧
      b.points = [(kimchiChallenges sp p).zeta, (kimchiChallenges sp p).zeta * idx.domain.omega] ∧
      (List.Forall₂ (HonestClaim idx.srs b.points) b.evaluation c.opened ↔ c.Satisfied ∧ c.TrueFt) := by
  obtain ⟨b, h1, -, h2, h3⟩ := batch_claims c hsize
  exact ⟨b, h1, h2, h3⟩

private theorem toBatch_opening (sp : KimchiSponges F G S R) (idx : KIndex F G) (p : KProof F G)
    (o : IpaProof F G) :
    kimchiToBatch sp idx { p with opening := o } =
      (kimchiToBatch sp idx p).map fun b => { b with opening := o } := by
  have h1 : publicComm idx { p with opening := o } = publicComm idx p := rfl
  have h2 : ∀ c, kimchiOracles sp idx { p with opening := o } c = kimchiOracles sp idx p c := fun _ => rfl
  have h3 : ∀ (ors : KOracles F G S) e0 e1,
      linearizedComm idx { p with opening := o } ors e0 e1 = linearizedComm idx p ors e0 e1 := fun _ _ _ => rfl
  have h4 : ∀ j, lookupEvaluations idx { p with opening := o } j = lookupEvaluations idx p j := fun _ => rfl
  rw [kimchiToBatch, kimchiToBatch, h1]
  cases publicComm idx p with
  | none => rfl
  | some pc =>
    simp only [Option.bind_eq_bind, Option.bind_some]
    rw [h2]
    cases kimchiOracles sp idx p pc with
    | none => rfl
    | some ors =>
      simp only [Option.bind_some]
      cases p.evals0.combine ors.pow0 with
      | none => rfl
      | some e0 =>
        simp only [Option.bind_some]
        cases p.evals1.combine ors.pow1 with
        | none => rfl
        | some e1 =>
          simp only [Option.bind_some]
          rw [h3]
          cases linearizedComm idx p ors e0 e1 with
          | none => rfl
          | some f =>
            simp only [Option.bind_some]
            rw [h4]
            cases lookupEvaluations idx p ors.jointCombiner with
            | none => rfl
            | some l => rfl

/-- C83 fails: every proof that gets a verdict, whatever its commitments and evaluations, is accepted with
another opening. -/
theorem C83_forgery (sp : KimchiSponges F G S R) (idx : KIndex F G) (p : KProof F G) (rand sgRand : F)
    (h : kimchiVerify sp rand sgRand idx p ≠ none) :
    ∃ o : IpaProof F G, o.lr.length = Nat.clog 2 idx.srs.g.length ∧
      ∀ rand sgRand, kimchiVerify sp rand sgRand idx { p with opening := o } = some true := by
  rw [kimchiVerify, kimchiBatchVerify] at h
  simp only [List.head?_cons, Option.bind_eq_bind, Option.bind_some, List.mapM_cons, List.mapM_nil] at h
  cases hb : kimchiToBatch sp idx p with
  | none =>
    rw [hb] at h
    exact absurd rfl h
  | some b =>
    rw [hb] at h
    simp only [Option.bind_some, Option.pure_def] at h
    have hcip : (ipaCombined b.points b.xi b.r idx.srs.g.length
        (b.evaluation.map fun e => (e, if e.commit.shifted ≠ 0 then e.bound else -1)) (0, 1)).isSome := by
      rw [ipaVerify] at h
      simp only [List.foldlM_cons, List.foldlM_nil, ipaVerifyStep] at h
      by_contra hn
      rw [Option.not_isSome_iff_eq_none] at hn
      rw [hn] at h
      exact h rfl
    obtain ⟨o, h1, h2⟩ := C76_any_claim_can_be_opened sp.ipa idx.srs b.sponge b.evaluation b.points b.xi b.r hcip
    refine ⟨o, h1, fun rand sgRand => ?_⟩
    rw [kimchiVerify, kimchiBatchVerify]
    simp only [List.head?_cons, Option.bind_eq_bind, Option.bind_some, List.mapM_cons, List.mapM_nil]
    rw [toBatch_opening, hb]
    exact h2 rand sgRand

/-- C83 fails: the challenges depend neither on the circuit nor on the previous challenges and commitments:
two proofs with the same commitments and evaluations have the same challenges, for any two circuits without
lookups. -/
theorem C83_challenges_bind_neither_circuit_nor_previous (sp : KimchiSponges F G S R) (idx idx' : KIndex F G)
    (p : KProof F G) (prev : List (List F × PolyComm G)) (hp : p.lookupUsed = false)
    (h0 : p.evals0.lookupUsed = false) (h1 : p.evals1.lookupUsed = false)
    (hl : idx.lookupIndexUsed = false) (hl' : idx'.lookupIndexUsed = false) (pc : PolyComm G)
    (hpc : pc.unshifted = []) (o o' : KOracles F G S) (ho : kimchiOracles sp idx p pc = some o)
    (ho' : kimchiOracles sp idx' { p with prevChallenges := prev } pc = some o') :
    (o.beta, o.gamma, o.alpha, o.zeta, o.v, o.u) = (o'.beta, o'.gamma, o'.alpha, o'.zeta, o'.v, o'.u) := by
  have key : ∀ (i : KIndex F G) (q : KProof F G), q.lookupUsed = false → q.evals0.lookupUsed = false →
      q.evals1.lookupUsed = false → i.lookupIndexUsed = false → ∀ o, kimchiOracles sp i q pc = some o →
      (o.beta, o.gamma, o.alpha, o.zeta, o.v, o.u) = ((kimchiChallenges sp q).beta, (kimchiChallenges sp q).gamma,
        (kimchiChallenges sp q).alpha, (kimchiChallenges sp q).zeta, (kimchiChallenges sp q).v,
        (kimchiChallenges sp q).u) := by
    intro i q h1 h2 h3 h4 o ho
    have hnp : q.publicInput = [] := by
      by_contra hne
      rw [kimchiOracles] at ho
      simp only [if_pos hne] at ho
      exact absurd ho (by simp)
    have hpc' : kimchiOracles sp i q pc = kimchiOracles sp i q ⟨[], 0⟩ := by
      rw [kimchiOracles, kimchiOracles, hpc]
    rw [hpc', oracles_eq sp i q hnp h4 h1 h2 h3] at ho
    simp only [Option.bind_eq_bind, Option.bind_eq_some_iff] at ho
    obtain ⟨_, _, _, _, _, _, _, _, ho⟩ := ho
    obtain rfl := Option.some.inj ho
    rfl
  exact (key idx p hp h0 h1 hl o ho).trans (key idx' { p with prevChallenges := prev } hp h0 h1 hl' o' ho').symm

end Crypto3Zk
