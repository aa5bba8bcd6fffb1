import Verif.Lemmas.FRIProof
import Verif.Model.LPC
import Verif.Props.LPC
import Verif.Lemmas.FftExample
import Mathlib.RingTheory.RootsOfUnity.PrimitiveRoots
import Mathlib.RingTheory.IntegralDomain

/-!
# C104: what the queries of an LPC proof show

The query points are taken from the domain the polynomials are committed on, which contains the rows of the table.
-/

set_option linter.unusedSectionVars false

namespace Crypto3Zk

variable {F : Type} [Field F] {Tree Root Path S : Type} {L : FftLib F} {A : Nat}

theorem mapM_some_getElem {α β : Type} {f : α → Option β} : ∀ {l : List α} {r : List β}, l.mapM f = some r →
    ∀ {i : Nat} {a : α}, l[i]? = some a → ∃ b, r[i]? = some b ∧ f a = some b
  | [], _, _, i, a, hi => by simp at hi
  | x :: l, r, h, i, a, hi => by
    rw [List.mapM_cons] at h
    obtain ⟨b, hb, h⟩ := Option.bind_eq_some_iff.mp h
    obtain ⟨bs, hbs, h⟩ := Option.bind_eq_some_iff.mp h
    obtain rfl := Option.some.inj h
    cases i with
    | zero =>
      rw [List.getElem?_cons_zero] at hi
      obtain rfl := Option.some.inj hi
      exact ⟨b, by simp, hb⟩
    | succ i =>
      rw [List.getElem?_cons_succ] at hi
      obtain ⟨b', h1, h2⟩ := mapM_some_getElem hbs hi
      exact ⟨b', by simpa using h1, h2⟩

theorem friInitialProofs_mem {M : MerkleLib F Tree Root Path} {D0 : FriDomain F} {step xIndex : Nat}
    {s : List (F × F)} {ix : List (Nat × Nat)} {trees : OMap Tree} :
    ∀ {g : OMap (List (FriPoly F))} {r : OMap (FriInitialProof F Path)},
      friInitialProofs L M D0 step xIndex s ix trees g = some r → ∀ {k : Nat} {fs : List (FriPoly F)}, (k, fs) ∈ g →
      ∃ e, (k, e) ∈ r ∧
        (fs.mapM fun f => (s.zip ix).mapM fun p => f.openPair L D0.size p.1 p.2) = some e.values
  | [], _, _, k, fs, hk => by simp at hk
  | (k', fs') :: g, r, h, k, fs, hk => by
    rw [friInitialProofs] at h
    obtain ⟨values, hv, h⟩ := Option.bind_eq_some_iff.mp h
    obtain ⟨i, -, h⟩ := Option.bind_eq_some_iff.mp h
    obtain ⟨tree, -, h⟩ := Option.bind_eq_some_iff.mp h
    obtain ⟨others, ho, h⟩ := Option.bind_eq_some_iff.mp h
    obtain rfl := Option.some.inj h
    rcases List.mem_cons.mp hk with he | hk
    · obtain ⟨rfl, rfl⟩ := Prod.mk.inj he
      exact ⟨_, List.mem_cons_self, hv⟩
    · obtain ⟨e, he, h⟩ := friInitialProofs_mem ho hk
      exact ⟨e, List.mem_cons_of_mem _ he, h⟩

/-- The first pair that a query opens of a polynomial has the value at the query point. -/
theorem friQuery_shows [DecidableEq F] (hL : L.Lawful A) {M : MerkleLib F Tree Root Path} {T : FriTranscript S F Root}
    {prm : FriParams F} {g : OMap (List (FriPoly F))} {gTrees : OMap Tree} {trees : List Tree}
    {fs : List (FriPoly F)} {final : List F} {st st' : S} {q : FriQueryProof F Path}
    (h : friQuery L M T prm g gTrees trees fs final st = some (st', q)) {m s : Nat} (hm : m < A)
    (hD : prm.D[0]? = some (L.domain (m + 1))) (hs : prm.stepList[0]? = some (s + 1)) {i0 : Nat}
    (hx : (T.challenge st).2 ^ ((prm.modulus - 1) / 2 ^ (m + 1)) = L.root (m + 1) ^ i0)
    {k : Nat} {ps : List (FriPoly F)} (hk : (k, ps) ∈ g) {i : Nat} {f : FriPoly F} (hi : ps[i]? = some f)
    {c : List F} (hf : f.Has L (m + 1) c) :
    ∃ e ys y, (k, e) ∈ q.initialProof ∧ e.values[i]? = some ys ∧ ys[0]? = some y ∧
      (y.1 = evalPoly c (L.root (m + 1) ^ i0) ∨ y.2 = evalPoly c (L.root (m + 1) ^ i0)) := by
  have hsz : ∀ k, (L.domain k).size = 2 ^ k := fun _ => rfl
  unfold friQuery at h
  simp only [hD, hs, Option.bind_eq_bind, Option.bind_some, hsz, hx] at h
  set x := L.root (m + 1) ^ i0 with hxd
  have hxe : (L.domain (m + 1)).elem (friQueryIndex (L.domain (m + 1)) x) = x := by
    have hmem : ((List.range (2 ^ (m + 1))).find? fun i => (L.domain (m + 1)).elem i = x).isSome := by
      rw [List.find?_isSome]
      refine ⟨i0 % 2 ^ (m + 1), List.mem_range.2 (Nat.mod_lt _ (Nat.pow_pos (by norm_num))), ?_⟩
      have h1 := root_pow_card hL (m + 1) (by omega)
      have : L.root (m + 1) ^ (i0 % 2 ^ (m + 1)) = x := by
        rw [hxd]
        conv_rhs => rw [← Nat.div_add_mod i0 (2 ^ (m + 1)), pow_add, pow_mul, h1, one_pow, one_mul]
      exact decide_eq_true this
    obtain ⟨j, hj⟩ := Option.isSome_iff_exists.mp hmem
    have := List.find?_some hj
    unfold friQueryIndex
    rw [hsz, hj]
    simpa using this
  have hlt := friQueryIndex_spec hL (m + 1) (by omega) x hxe
  obtain ⟨xi, hxi⟩ : ∃ xi, xi = friQueryIndex (L.domain (m + 1)) x := ⟨_, rfl⟩
  rw [← hxi] at h hxe hlt
  rw [calculateS_eq (L := L) m s xi hlt x hxe] at h
  simp only [Option.bind_some] at h
  obtain ⟨init, hinit, h⟩ := Option.bind_eq_some_iff.mp h
  obtain ⟨rounds, -, h⟩ := Option.bind_eq_some_iff.mp h
  obtain ⟨-, rfl⟩ := Prod.mk.inj (Option.some.inj h)
  obtain ⟨e, he, hv⟩ := friInitialProofs_mem hinit hk
  obtain ⟨ys, hys, hone⟩ := mapM_some_getElem hv hi
  have hval : ((((cosetPairs m xi s).map fun p =>
      ((L.domain (m + 1)).elem p.1, (L.domain (m + 1)).elem p.2)).zip (cosetPairs m xi s)).mapM
        fun p => f.openPair L (2 ^ (m + 1)) p.1 p.2) = some (cosetVals L m c xi s) := by
    rw [zip_map_left_self]
    unfold cosetPairs cosetVals
    rw [List.map_map]
    exact mapM_range_map _ _ _ _ fun i _ => has_openPair hL m hm c f hf xi i
  rw [hsz, hval] at hone
  obtain rfl := Option.some.inj hone
  have hpos : 0 < 2 ^ s := Nat.pow_pos (by norm_num)
  have h0 : cosetIdx (2 ^ (m + 1)) xi 0 = xi := by
    unfold cosetIdx cosetOff
    simp [Nat.mod_eq_of_lt hlt]
  refine ⟨e, _, _, he, hys, by unfold cosetVals; rw [List.getElem?_map, List.getElem?_range hpos]; rfl, ?_⟩
  simp only [h0]
  have hp : 2 ^ (m + 1) = 2 * 2 ^ m := by rw [pow_succ, mul_comm]
  by_cases hh : xi < 2 ^ m
  · left
    rw [Nat.mod_eq_of_lt hh, hxe]
  · right
    rw [Nat.mod_eq_sub_mod (by omega), Nat.mod_eq_of_lt (by omega), Nat.sub_add_cancel (by omega), hxe]

/-- the state of the transcript after `t` challenges -/
def challengesDrawn (T : FriTranscript S F Root) (t : Nat) (st : S) : S := (fun st => (T.challenge st).1)^[t] st

theorem friQueries_each [DecidableEq F] {M : MerkleLib F Tree Root Path} {T : FriTranscript S F Root}
    {prm : FriParams F} {g : OMap (List (FriPoly F))} {gTrees : OMap Tree} {trees : List Tree}
    {fs : List (FriPoly F)} {final : List F} : ∀ {n : Nat} {st st' : S} {qs : List (FriQueryProof F Path)},
    friQueries L M T prm g gTrees trees fs final n st = some (st', qs) →
    st' = challengesDrawn T n st ∧ qs.length = n ∧ ∀ {t q}, qs[t]? = some q →
      ∃ st2, friQuery L M T prm g gTrees trees fs final (challengesDrawn T t st) = some (st2, q)
  | 0, st, st', qs, h => by
    obtain ⟨rfl, rfl⟩ := Prod.mk.inj (Option.some.inj h)
    exact ⟨rfl, rfl, fun h => by simp at h⟩
  | n + 1, st, st', qs, h => by
    rw [friQueries] at h
    obtain ⟨⟨st1, q1⟩, h1, h⟩ := Option.bind_eq_some_iff.mp h
    obtain ⟨⟨st2, qs2⟩, h2, h⟩ := Option.bind_eq_some_iff.mp h
    obtain ⟨rfl, rfl⟩ := Prod.mk.inj (Option.some.inj h)
    have e1 : st1 = (T.challenge st).1 := by
      unfold friQuery at h1
      obtain ⟨D0, -, h1⟩ := Option.bind_eq_some_iff.mp h1
      obtain ⟨s0, -, h1⟩ := Option.bind_eq_some_iff.mp h1
      obtain ⟨_, -, h1⟩ := Option.bind_eq_some_iff.mp h1
      obtain ⟨_, -, h1⟩ := Option.bind_eq_some_iff.mp h1
      obtain ⟨_, -, h1⟩ := Option.bind_eq_some_iff.mp h1
      exact (Prod.mk.inj (Option.some.inj h1)).1.symm
    obtain ⟨a, b, c⟩ := friQueries_each h2
    subst e1
    refine ⟨a, by simp [b], fun {t q} hq => ?_⟩
    cases t with
    | zero =>
      rw [List.getElem?_cons_zero] at hq
      obtain rfl := Option.some.inj hq
      exact ⟨_, h1⟩
    | succ t =>
      rw [List.getElem?_cons_succ] at hq
      exact c hq

theorem root_pow_tower (hL : L.Lawful A) (n : Nat) : ∀ k, n + k ≤ A → L.root (n + k) ^ 2 ^ k = L.root n
  | 0, _ => by simp
  | k + 1, h => by
    rw [pow_succ', pow_mul, pow_two, ← add_assoc, hL.root_sq (n + k) (by omega)]
    exact root_pow_tower hL n k (by omega)

/-- **C104**, finding: the queries of an LPC proof are made at points of the domain on which the columns are committed,
and this domain contains the rows of the table. Whenever a query point is a row, the cell of every column of `2 ^ n` rows
in that row, padded or not, is written in the proof. The `t`-th query point is a power of the `t`-th challenge drawn after
the transcript was in the state `st0`, and the transcript ends after the last of these challenges. -/
theorem C104_lpc_queries_show_rows [DecidableEq F] (hL : L.Lawful A) (M : MerkleLib F Tree Root Path)
    (T : FriTranscript S F Root) (prm : FriParams F) (dfs : Bool) (fuel nonce : Nat) (sch : LpcScheme F Tree)
    (st st' : S) (z : EvalStorage F) (proof : FriProof F Root Path)
    (h : sch.proofEval L M T prm dfs fuel nonce st = some ((z, proof), st')) {m n s : Nat} (hm : m < A)
    (hD : prm.D[0]? = some (L.domain (m + 1))) (hs : prm.stepList[0]? = some (s + 1)) (hn : n ≤ m + 1) :
    ∃ st0, st' = challengesDrawn T prm.lambda st0 ∧ proof.queryProofs.length = prm.lambda ∧
      ∀ t q, proof.queryProofs[t]? = some q → ∀ j < 2 ^ n,
        (T.challenge (challengesDrawn T t st0)).2 ^ ((prm.modulus - 1) / 2 ^ (m + 1)) = L.root n ^ j →
        ∀ (k : Nat) (ps : List (FriPoly F)) (i : Nat) (col : List F), (k, ps) ∈ sch.forms → ps[i]? = some (FriPoly.dfs col) → col.length = 2 ^ n →
          ∃ (e : FriInitialProof F Path) (ys : List (F × F)) (y : F × F), (k, e) ∈ q.initialProof ∧ e.values[i]? = some ys ∧ ys[0]? = some y ∧
            (y.1 = col.getD j 0 ∨ y.2 = col.getD j 0) := by
  unfold LpcScheme.proofEval at h
  obtain ⟨ev, -, h⟩ := Option.bind_eq_some_iff.mp h
  split at h
  swap
  · simp at h
  dsimp only at h
  obtain ⟨items, -, h⟩ := Option.bind_eq_some_iff.mp h
  obtain ⟨D, -, h⟩ := Option.bind_eq_some_iff.mp h
  obtain ⟨step, -, h⟩ := Option.bind_eq_some_iff.mp h
  obtain ⟨⟨qTree, Q⟩, -, h⟩ := Option.bind_eq_some_iff.mp h
  obtain ⟨⟨proof', st1⟩, hpr, h'⟩ := Option.bind_eq_some_iff.mp h
  obtain ⟨h1, rfl⟩ := Prod.mk.inj (Option.some.inj h')
  obtain ⟨-, rfl⟩ := Prod.mk.inj h1
  dsimp only at hpr
  unfold friProve at hpr
  by_cases hchk : checkStepList prm.stepList prm.r = true
  swap
  · rw [if_neg hchk] at hpr
    simp at hpr
  rw [if_pos hchk] at hpr
  obtain ⟨⟨_, trees, _, fs⟩, -, hpr⟩ := Option.bind_eq_some_iff.mp hpr
  obtain ⟨last, -, hpr⟩ := Option.bind_eq_some_iff.mp hpr
  obtain ⟨st0, hq⟩ : ∃ st0, friQueries L M T prm sch.forms sch.trees trees fs (last.final L) prm.lambda st0 =
      some (st1, proof'.queryProofs) := by
    cases hgr : prm.useGrinding with
    | false =>
      simp only [hgr, Bool.false_eq_true, if_false] at hpr
      obtain ⟨⟨pow, st3⟩, -, hpr⟩ := Option.bind_eq_some_iff.mp hpr
      obtain ⟨⟨st2, queries⟩, hq, hpr⟩ := Option.bind_eq_some_iff.mp hpr
      obtain ⟨rfl, rfl⟩ := Prod.mk.inj (Option.some.inj hpr)
      exact ⟨_, hq⟩
    | true =>
      simp only [hgr, if_true] at hpr
      obtain ⟨⟨pow, st3⟩, -, hpr⟩ := Option.bind_eq_some_iff.mp hpr
      obtain ⟨⟨st2, queries⟩, hq, hpr⟩ := Option.bind_eq_some_iff.mp hpr
      obtain ⟨rfl, rfl⟩ := Prod.mk.inj (Option.some.inj hpr)
      exact ⟨_, hq⟩
  obtain ⟨a, b, c⟩ := friQueries_each hq
  refine ⟨st0, a, b, fun t q ht j hj hx k ps i col hk hi hcol => ?_⟩
  obtain ⟨st3, hq⟩ := c ht
  obtain ⟨d, hd⟩ : ∃ d, m + 1 = n + d := ⟨m + 1 - n, by omega⟩
  have hroot : L.root n ^ j = L.root (m + 1) ^ (2 ^ d * j) := by
    rw [pow_mul, hd, root_pow_tower hL n d (by omega)]
  obtain ⟨cf, hcl, hce⟩ := evals_surjective hL n (by omega) col hcol
  obtain ⟨e, ys, y, h1, h2, h3, h4⟩ := friQuery_shows hL hq hm hD hs (hx.trans hroot) hk hi
    (c := cf) ⟨n, hn, hce.symm, hcl.le⟩
  have hv : evalPoly cf (L.root (m + 1) ^ (2 ^ d * j)) = col.getD j 0 := by
    rw [← hroot, ← hce]
    simp [FriDomain.evals, FftLib.domain, hj]
  rw [hv] at h4
  exact ⟨e, ys, y, h1, h2, h3, h4⟩

/-- **C104**, finding: of the nonzero challenges, one in `2 ^ d` leads to a query point that is a row, if the domain of
the commitment has `2 ^ d` times as many points as there are rows. -/
theorem C104_lpc_rows_queried [Fintype F] [DecidableEq F] (hL : L.Lawful A) {n d : Nat} (hA : n + d ≤ A)
    (hdvd : 2 ^ (n + d) ∣ Fintype.card F - 1) :
    (Finset.univ.filter fun c : F => c ≠ 0 ∧
      ∃ j < 2 ^ n, c ^ ((Fintype.card F - 1) / 2 ^ (n + d)) = L.root n ^ j).card * 2 ^ d = Fintype.card F - 1 := by
  obtain ⟨e, he⟩ := hdvd
  have h2 : 0 < 2 ^ (n + d) := Nat.pow_pos (by norm_num)
  have hq : 0 < Fintype.card F - 1 := by have := Fintype.one_lt_card (α := F); omega
  have he0 : 0 < e := Nat.pos_of_ne_zero fun h => by rw [h, mul_zero] at he; omega
  have hdiv : (Fintype.card F - 1) / 2 ^ (n + d) = e := by rw [he, Nat.mul_div_cancel_left _ h2]
  have hn2 : NeZero (2 ^ n) := ⟨(Nat.pow_pos (by norm_num)).ne'⟩
  have hk : 0 < 2 ^ n * e := Nat.mul_pos (Nat.pow_pos (by norm_num)) he0
  obtain ⟨g, hg⟩ := IsCyclic.exists_generator (α := Fˣ)
  have hord : orderOf g = Fintype.card F - 1 := by
    rw [orderOf_eq_card_of_forall_mem_zpowers hg, Nat.card_eq_fintype_card, Fintype.card_units]
  have hprim : IsPrimitiveRoot (g : F) (Fintype.card F - 1) := by
    rw [IsPrimitiveRoot.coe_units_iff, ← hord]
    exact IsPrimitiveRoot.orderOf g
  have hroot : IsPrimitiveRoot ((g : F) ^ 2 ^ d) (2 ^ n * e) :=
    hprim.pow hq (by rw [he, pow_add]; ring)
  have hset : (Finset.univ.filter fun c : F => c ≠ 0 ∧
      ∃ j < 2 ^ n, c ^ ((Fintype.card F - 1) / 2 ^ (n + d)) = L.root n ^ j) =
      Polynomial.nthRootsFinset (2 ^ n * e) (1 : F) := by
    ext c
    rw [Finset.mem_filter, Polynomial.mem_nthRootsFinset hk, hdiv]
    constructor
    · rintro ⟨-, -, j, -, hj⟩
      rw [mul_comm, pow_mul, hj, ← pow_mul, mul_comm, pow_mul, root_pow_card hL n (by omega), one_pow]
    · intro h
      refine ⟨Finset.mem_univ _, fun h0 => ?_, ?_⟩
      · rw [h0, zero_pow hk.ne'] at h
        exact zero_ne_one h
      · rw [mul_comm, pow_mul] at h
        obtain ⟨j, hj, hjx⟩ := (root_primitive hL n (by omega)).eq_pow_of_pow_eq_one h
        exact ⟨j, hj, hjx.symm⟩
  rw [hset, hroot.card_nthRootsFinset, he, pow_add]
  ring

/-- A run of the prover: the column `11, 12, 13, 14` is committed on eight points and opened at `7`. The initial proofs of
the three queries. -/
def exShownRun : Option (List (List (List (List (ZMod 17 × ZMod 17))))) := do
  let sp ← runLpc (FftLib.ofRoots exRoots17) (listMerkle (ZMod 17)) exFriParams
    [.append 0 [.dfs [11, 12, 13, 14]], .commit 0, .points 0 [7]]
  let (proof, _) ← sp.proofEval (FftLib.ofRoots exRoots17) (listMerkle (ZMod 17)) exFriTranscript
    exFriParams true 0 0 0
  some (proof.2.queryProofs.map fun q => q.initialProof.map fun e => e.2.values)

set_option synthInstance.maxHeartbeats 200000 in
set_option synthInstance.maxSize 1000 in
/-- **C104**, an example for the finding: the second and the third query show all four cells of the column. -/
theorem C104_lpc_example : exShownRun = some [[[[(13, 16)]]], [[[(12, 14)]]], [[[(11, 13)]]]] := by
  decide +kernel

/-- The hypotheses of `C104_lpc_queries_show_rows` are met: the parameters of this run have the domain of `2 ^ 3` points,
and the first step is one; there are four rows. -/
example : exFriParams.D[0]? = some ((FftLib.ofRoots exRoots17).domain (2 + 1)) ∧
    exFriParams.stepList[0]? = some (0 + 1) ∧ exFriParams.modulus = 17 := ⟨rfl, rfl, rfl⟩

/-- Half of the sixteen nonzero challenges lead to one of the four rows. -/
example : (Finset.univ.filter fun c : ZMod 17 => c ≠ 0 ∧
    ∃ j < 2 ^ 2, c ^ ((Fintype.card (ZMod 17) - 1) / 2 ^ (2 + 1)) =
      (FftLib.ofRoots exRoots17).root 2 ^ j).card * 2 ^ 1 = Fintype.card (ZMod 17) - 1 :=
  C104_lpc_rows_queried exLib17_lawful (by norm_num) (by rw [ZMod.card]; norm_num)

end Crypto3Zk
