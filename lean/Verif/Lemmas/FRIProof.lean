import Verif.Lemmas.FRIRounds
import Verif.Props.ProofOfWork

/-!
# The FRI prover and verifier on honest input
-/

namespace Crypto3Zk

set_option linter.unusedSectionVars false

variable {F : Type} [Field F] {Tree Root Path S : Type} {L : FftLib F} {A : Nat}

/-! ## the commit phase -/

theorem foldList_ne_nil (a : F) (c : List F) (h : c ≠ []) : foldList a c ≠ [] := by
  intro h'
  have h1 := congrArg List.length h'
  rw [length_foldList, List.length_nil] at h1
  have h2 := List.length_pos_of_ne_nil h
  omega

theorem represents_fold (hL : L.Lawful A) (n : Nat) (hn : n < A) (c : List F) (hc : c ≠ [])
    (f : FriPoly F) (h : f.Represents (L.domain (n + 1)) c) (a : F) :
    ∃ g, f.fold a (some (L.domain (n + 1))) = some g ∧
      g.Represents (L.domain n) (foldList a c) := by
  cases f with
  | coeff c' =>
    obtain rfl := h
    exact ⟨.coeff (foldList a c'), by simp [FriPoly.fold, foldCoeff_eq _ hc], rfl⟩
  | dfs v =>
    obtain rfl := h
    exact ⟨.dfs ((L.domain n).evals (foldList a c)), by
      simp [FriPoly.fold, foldDfs_evals hL n hn], rfl⟩

theorem friFoldRound_honest (hL : L.Lawful A) (T : FriTranscript S F Root) (prm : FriParams F)
    (n r : Nat) (hD : ∀ t < r, prm.D[t]? = some (L.domain (n - t))) (hr : r ≤ n) (hA : n ≤ A) :
    ∀ (k : Nat) (st : S) (f : FriPoly F) (t : Nat) (c : List F), t + k ≤ r → c ≠ [] →
    f.Represents (L.domain (n - t)) c →
    ∃ g, friFoldRound T prm k st f t = some ((friChallenges T k st).1, (friChallenges T k st).2, g) ∧
      g.Represents (L.domain (n - (t + k))) (foldAll (friChallenges T k st).2 c) ∧
      foldAll (friChallenges T k st).2 c ≠ [] := by
  intro k
  induction k with
  | zero =>
    intro st f t c _ hc hf
    exact ⟨f, rfl, hf, hc⟩
  | succ k ih =>
    intro st f t c htk hc hf
    obtain ⟨m, hm⟩ : ∃ m, n - t = m + 1 := ⟨n - t - 1, by omega⟩
    rw [hm] at hf
    obtain ⟨g, hg, hgr⟩ := represents_fold hL m (by omega) c hc f hf (T.challenge st).2
    obtain ⟨g', hg', hgr', hne⟩ := ih (T.challenge st).1 g (t + 1) (foldList (T.challenge st).2 c)
      (by omega) (foldList_ne_nil _ _ hc) (by rw [show n - (t + 1) = m by omega]; exact hgr)
    refine ⟨g', ?_, ?_, ?_⟩
    · simp only [friFoldRound, friChallenges, hD t (by omega), hm, hg, hg', Option.bind_eq_bind,
        Option.bind_some]
    · rw [show t + (k + 1) = t + 1 + k by ring]
      simpa [foldAll, friChallenges] using hgr'
    · simpa [foldAll, friChallenges] using hne

theorem length_friChallenges (T : FriTranscript S F Root) :
    ∀ (k : Nat) (st : S), (friChallenges T k st).2.length = k
  | 0, _ => rfl
  | k + 1, st => by simp [friChallenges, length_friChallenges T k]

theorem length_foldAll (as : List F) : ∀ (c : List F) (m : Nat), c.length ≤ 2 ^ m →
    (foldAll as c).length ≤ 2 ^ (m - as.length) := by
  induction as with
  | nil => intro c m h; simpa [foldAll] using h
  | cons a as ih =>
    intro c m h
    have hl := length_foldList a c
    cases m with
    | zero =>
      have := ih (foldList a c) 0 (by rw [hl]; simp at h; simp; omega)
      simpa [foldAll] using this
    | succ m =>
      have hp : 2 ^ (m + 1) = 2 * 2 ^ m := by rw [pow_succ, mul_comm]
      have := ih (foldList a c) m (by rw [hl]; omega)
      rw [List.length_cons, show m + 1 - (as.length + 1) = m - as.length by omega]
      simpa [foldAll] using this

theorem friCommitPhase_honest (hL : L.Lawful A) (M : MerkleLib F Tree Root Path)
    (T : FriTranscript S F Root) (prm : FriParams F) (n r : Nat)
    (hD : ∀ t < r, prm.D[t]? = some (L.domain (n - t))) (hr : r ≤ n) (hA : n ≤ A) :
    ∀ (rest : List Nat) (s : Nat) (st : S) (f : FriPoly F) (t : Nat) (c : List F)
      (leaves : List (List F)),
    (∀ s' ∈ s :: rest, 1 ≤ s') → t + (s :: rest).sum = r → c ≠ [] → c.length ≤ 2 ^ (n - t) →
    f.Represents (L.domain (n - t)) c →
    friLeaves [(L.domain (n - t)).evals c] (2 ^ (n - t)) s = some leaves →
    ∃ st' trees as fs,
      friCommitPhase L M T prm (s :: rest) st f (M.build leaves) t = some (st', trees, as, fs) ∧
      FriHonest L M n (s :: rest) t c as trees fs ∧ as.length = (s :: rest).sum ∧
      friAlphas T (s :: rest) (trees.map M.root) st = some (st', as) ∧
      ∃ g, fs.getLast? = some g ∧ g.Represents (L.domain (n - r)) (foldAll as c) := by
  have hsz : ∀ k, (L.domain k).size = 2 ^ k := fun _ => rfl
  intro rest
  induction rest with
  | nil =>
    intro s st f t c leaves hpos hsum hc hlen hf hleaves
    simp only [List.sum_cons, List.sum_nil, add_zero] at hsum
    obtain ⟨g, hg, hgr, _⟩ := friFoldRound_honest hL T prm n r hD hr hA s
      (T.absorbRoot st (M.root (M.build leaves))) f t c (by omega) hc hf
    refine ⟨(friChallenges T s (T.absorbRoot st (M.root (M.build leaves)))).1, [M.build leaves],
      (friChallenges T s (T.absorbRoot st (M.root (M.build leaves)))).2, [f, g], by
      simp only [friCommitPhase, hg, Option.bind_eq_bind, Option.bind_some], ?_, ?_, ?_, g, rfl, ?_⟩
    · exact ⟨_, [], leaves, [], f, [g], by rw [List.append_nil], length_friChallenges T s _, hleaves,
        rfl, rfl, hf, rfl, rfl, g, rfl, hgr⟩
    · simp [length_friChallenges]
    · simp [friAlphas]
    · rw [← hsum]; exact hgr
  | cons s2 rest ih =>
    intro s st f t c leaves hpos hsum hc hlen hf hleaves
    simp only [List.sum_cons] at hsum
    have hs2 := hpos s2 (by simp)
    obtain ⟨g, hg, hgr, hne⟩ := friFoldRound_honest hL T prm n r hD hr hA s
      (T.absorbRoot st (M.root (M.build leaves))) f t c (by omega) hc hf
    set st1 := (friChallenges T s (T.absorbRoot st (M.root (M.build leaves)))).1 with hst1
    set a1 := (friChallenges T s (T.absorbRoot st (M.root (M.build leaves)))).2 with ha1
    have hla1 : a1.length = s := length_friChallenges T s _
    have hlen' : (foldAll a1 c).length ≤ 2 ^ (n - (t + s)) := by
      have := length_foldAll a1 c _ hlen
      rwa [hla1, show n - t - s = n - (t + s) by omega] at this
    obtain ⟨m, hm⟩ : ∃ m, n - (t + s) = m + 1 := ⟨n - (t + s) - 1, by omega⟩
    obtain ⟨s2', rfl⟩ : ∃ k, s2 = k + 1 := ⟨s2 - 1, by omega⟩
    have hl2 := friLeaves_eq (L := L) m s2' (by omega) [foldAll a1 c]
    simp only [List.map_cons, List.map_nil] at hl2
    obtain ⟨leaves2, hleaves2⟩ : ∃ l, friLeaves [(L.domain (n - (t + s))).evals (foldAll a1 c)]
        (2 ^ (n - (t + s))) (s2' + 1) = some l := ⟨_, by rw [hm]; exact hl2⟩
    have hpre : friPrecommit L M g (L.domain (n - (t + s))) (s2' + 1) =
        some (M.build leaves2, g) := by
      unfold friPrecommit
      cases g with
      | coeff c' =>
        obtain rfl := hgr
        simp only [FriPoly.on, hsz, if_pos hlen', Option.bind_eq_bind, Option.bind_some, hleaves2]
      | dfs v =>
        obtain rfl := hgr
        simp only [FriPoly.on, length_evals, if_true, Option.bind_eq_bind, Option.bind_some, hsz,
          hleaves2]
    obtain ⟨st', trees, as, fs, hcp, hH, has, hal, g', hg', hgr'⟩ := ih (s2' + 1) st1 g (t + s)
      (foldAll a1 c) leaves2 (fun s' hs' => hpos s' (by simp only [List.mem_cons] at hs' ⊢; tauto))
      (by simp only [List.sum_cons]; omega) hne hlen' hgr hleaves2
    refine ⟨st', M.build leaves :: trees, a1 ++ as, f :: fs, ?_, ?_, ?_, ?_, g', ?_, ?_⟩
    · rw [friCommitPhase]
      simp only [hg, hD (t + s) (by omega), hpre, hcp, Option.bind_eq_bind, Option.bind_some]
    · exact ⟨a1, as, leaves, trees, f, fs, rfl, hla1, hleaves, rfl, rfl, hf, hH⟩
    · simp only [List.length_append, hla1, has, List.sum_cons]
    · rw [friAlphas]
      simp only [List.map_cons, List.head?_cons, List.tail_cons, Option.bind_eq_bind,
        Option.bind_some, ← hst1, ← ha1, hal]
    · rw [List.getLast?_cons, hg']; rfl
    · simpa [foldAll] using hgr'

/-! ## the initial proofs -/

/-- the tree of a batch -/
def batchLeaves (L : FftLib F) (n s : Nat) (cs : List (List F)) : List (List F) :=
  (List.range (2 ^ (n - s))).map fun x => (cs.map fun c => leafVals L n s c x).flatten

theorem friPrecommitBatch_honest (hL : L.Lawful A) (M : MerkleLib F Tree Root Path) (n s : Nat)
    (hs : s ≤ n) (hn : n < A) (fs : List (FriPoly F)) (cs : List (List F))
    (h : List.Forall₂ (fun f c => f.Has L (n + 1) c) fs cs) :
    friPrecommitBatch L M fs (L.domain (n + 1)) (s + 1) = some (M.build (batchLeaves L n s cs)) := by
  have hvs : fs.mapM (fun f => f.on L (L.domain (n + 1))) =
      some (cs.map (L.domain (n + 1)).evals) := by
    induction h with
    | nil => rfl
    | cons h _ ih =>
      simp only [List.mapM_cons, has_on hL (n + 1) (by omega) _ _ h, ih, Option.bind_eq_bind,
        Option.bind_some, Option.pure_def, List.map_cons]
  unfold friPrecommitBatch
  simp only [hvs, Option.bind_eq_bind, Option.bind_some]
  rw [show (L.domain (n + 1)).size = 2 ^ (n + 1) from rfl, friLeaves_eq n s hs cs]
  rfl

/-- The initial proofs in closed form. -/
def initialOf (L : FftLib F) (M : MerkleLib F Tree Root Path) (n s x : Nat)
    (P : OMap (List (List F))) : OMap (FriInitialProof F Path) :=
  P.map fun kv => (kv.1, ⟨kv.2.map fun c => cosetVals L n c x s,
    M.path (M.build (batchLeaves L n s kv.2)) (x % 2 ^ (n - s))⟩)

theorem specialized_folded (n s x : Nat) (hx : x < 2 ^ (n + 1)) (hs : s ≤ n) :
    foldedIndex x (2 ^ (n + 1)) (s + 1) = some (x % 2 ^ (n - s)) ∧
      specializedIndex (x % 2 ^ (n - s)) (2 ^ (n + 1)) = x % 2 ^ (n - s) := by
  have hpos : 0 < 2 ^ (n - s) := Nat.pow_pos (by norm_num)
  have hp : 2 ^ (n + 1) = 2 * 2 ^ n := by rw [pow_succ, mul_comm]
  have hle : 2 ^ (n - s) ≤ 2 ^ n := Nat.pow_le_pow_right (by norm_num) (by omega)
  have hlt : x % 2 ^ (n - s) < 2 ^ (n - s) := Nat.mod_lt _ hpos
  constructor
  · rw [foldedIndex_eq _ _ _ (by omega) hx, show n + 1 - (s + 1) = n - s by omega]
  · unfold specializedIndex
    rw [(min_pairedIndex n _ (by omega)).1, Nat.mod_eq_of_lt (by omega)]

theorem friInitialProofs_honest (hL : L.Lawful A) (M : MerkleLib F Tree Root Path) (n s x : Nat)
    (hs : s ≤ n) (hn : n < A) (hx : x < 2 ^ (n + 1)) (gTrees : OMap Tree)
    (g : OMap (List (FriPoly F))) (P : OMap (List (List F))) (hP : FriBatches L (n + 1) g P)
    (htrees : ∀ k cs, (k, cs) ∈ P → gTrees.find k = some (M.build (batchLeaves L n s cs))) :
    friInitialProofs L M (L.domain (n + 1)) (s + 1) x
      ((cosetPairs n x s).map fun p => ((L.domain (n + 1)).elem p.1, (L.domain (n + 1)).elem p.2))
      (cosetPairs n x s) gTrees g = some (initialOf L M n s x P) := by
  have hsz : ∀ k, (L.domain k).size = 2 ^ k := fun _ => rfl
  obtain ⟨hf, hsp⟩ := specialized_folded n s x hx hs
  induction hP with
  | nil => rfl
  | @cons a b g P h _ ih =>
    obtain ⟨k, fs⟩ := a
    obtain ⟨k', cs⟩ := b
    obtain ⟨rfl, hfc⟩ := h
    have hone : ∀ f c, FriPoly.Has L (n + 1) c f →
        ((((cosetPairs n x s).map fun p =>
            ((L.domain (n + 1)).elem p.1, (L.domain (n + 1)).elem p.2)).zip (cosetPairs n x s)).mapM
          fun p => f.openPair L (2 ^ (n + 1)) p.1 p.2) = some (cosetVals L n c x s) := by
      intro f c hc
      rw [zip_map_left_self]
      unfold cosetPairs cosetVals
      rw [List.map_map]
      exact mapM_range_map _ _ _ _ fun i _ => has_openPair hL n hn c f hc x i
    have hvals : fs.mapM (fun f => (((cosetPairs n x s).map fun p =>
            ((L.domain (n + 1)).elem p.1, (L.domain (n + 1)).elem p.2)).zip (cosetPairs n x s)).mapM
          fun p => f.openPair L (2 ^ (n + 1)) p.1 p.2) =
        some (cs.map fun c => cosetVals L n c x s) := by
      clear ih htrees
      simp only at hfc
      induction hfc with
      | nil => rfl
      | cons h _ ih => 
        rw [List.mapM_cons, hone _ _ h, ih]
        rfl
    have hih := ih fun k cs h => htrees k cs (List.mem_cons_of_mem _ h)
    simp only at hvals hih htrees
    rw [friInitialProofs]
    simp only [hsz] at hih ⊢
    rw [hvals, hf, htrees k cs (by simp)]
    simp only [Option.bind_eq_bind, Option.bind_some, hih, hsp]
    rfl

theorem friCheckInitial_honest [DecidableEq Root] (M : MerkleLib F Tree Root Path)
    (hM : M.Lawful) (n s x : Nat) (hs : s ≤ n) (hx : x < 2 ^ (n + 1))
    (commitments : OMap Root) (order : List (Nat × Nat))
    (hre : ∀ c, reorderLeaf order (cosetVals L n c x s) = some (leafVals L n s c (x % 2 ^ (n - s)))) :
    ∀ P : OMap (List (List F)),
    (∀ k cs, (k, cs) ∈ P → commitments.find k = some (M.root (M.build (batchLeaves L n s cs)))) →
    friCheckInitial M commitments order (initialOf L M n s x P) = some true
  | [], _ => rfl
  | (k, cs) :: P, h => by
    have hpos : 0 < 2 ^ (n - s) := Nat.pow_pos (by norm_num)
    have hlt : x % 2 ^ (n - s) < 2 ^ (n - s) := Nat.mod_lt _ hpos
    have ih := friCheckInitial_honest M hM n s x hs hx commitments order hre P
      fun k cs h' => h k cs (List.mem_cons_of_mem _ h')
    have hlen : (batchLeaves L n s cs).length = 2 ^ (n - s) := by simp [batchLeaves]
    have hval := hM.validate (n - s) (batchLeaves L n s cs) (x % 2 ^ (n - s)) (by omega) hlen
    have hpart : (cs.map fun c => cosetVals L n c x s).mapM (fun y => reorderLeaf order y) =
        some (cs.map fun c => leafVals L n s c (x % 2 ^ (n - s))) := by
      rw [List.mapM_map]
      exact mapM_eq_some_map _ _ _ fun c _ => hre c
    simp only [initialOf, List.map_cons, friCheckInitial, h k cs (by simp), Option.bind_eq_bind,
      Option.bind_some, hM.root (n - s) _ _ hlen hlt, ne_eq, not_true_eq_false, if_false, hpart]
    rw [show (cs.map fun c => leafVals L n s c (x % 2 ^ (n - s))).flatten =
      (batchLeaves L n s cs)[x % 2 ^ (n - s)] by simp [batchLeaves], hval, if_pos rfl]
    exact ih

/-! ## the combined values -/

theorem find_initialOf (M : MerkleLib F Tree Root Path) (n s x k : Nat) :
    ∀ P : OMap (List (List F)), (initialOf L M n s x P).find k =
      (P.find k).map fun cs => ⟨cs.map fun c => cosetVals L n c x s,
        M.path (M.build (batchLeaves L n s cs)) (x % 2 ^ (n - s))⟩
  | [] => rfl
  | (k', cs) :: P => by
    have ih := find_initialOf M n s x k P
    unfold initialOf at ih ⊢
    simp only [List.map_cons, OMap.find]
    split_ifs
    · rfl
    · exact ih

theorem friOpened_honest (M : MerkleLib F Tree Root Path) (n s x j : Nat) (hj : j < 2 ^ s)
    (P : OMap (List (List F))) (id : Nat × Nat) (c : List F) (hc : batchPoly P id = some c) :
    friOpened (initialOf L M n s x P) id j =
      some (evalPoly c ((L.domain (n + 1)).elem (cosetIdx (2 ^ (n + 1)) x j % 2 ^ n)),
        evalPoly c ((L.domain (n + 1)).elem (cosetIdx (2 ^ (n + 1)) x j % 2 ^ n + 2 ^ n))) := by
  unfold batchPoly at hc
  cases hf : P.find id.1 with
  | none => rw [hf] at hc; simp at hc
  | some cs =>
    rw [hf, Option.bind_some] at hc
    unfold friOpened
    simp only [find_initialOf, hf, Option.map_some, Option.bind_eq_bind, Option.bind_some,
      List.getElem?_map, hc, cosetVals, List.getElem?_range hj]

theorem friCombineStep_fold (initial : OMap (FriInitialProof F Path)) (P : OMap (List (List F)))
    (theta p0 p1 : F) (j : Nat)
    (hop : ∀ id c, batchPoly P id = some c →
      friOpened initial id j = some (evalPoly c p0, evalPoly c p1)) :
    ∀ (ids : List (Nat × Nat)) (acc a b : F), (∀ id ∈ ids, ∃ c, batchPoly P id = some c) →
    ids.foldlM (friCombineStep initial theta j) (acc, a, b) =
      some (acc * theta ^ ids.length, a + thetaSum P theta p0 ids acc,
        b + thetaSum P theta p1 ids acc)
  | [], acc, a, b, _ => by simp [thetaSum]
  | id :: ids, acc, a, b, h => by
    obtain ⟨c, hc⟩ := h id (by simp)
    have ih := friCombineStep_fold initial P theta p0 p1 j hop ids (acc * theta)
      (a + evalPoly c p0 * acc) (b + evalPoly c p1 * acc) fun id h' => h id (by simp [h'])
    rw [List.foldlM_cons]
    simp only [friCombineStep, hop id c hc, Option.bind_eq_bind, Option.bind_some] at ih ⊢
    rw [ih]
    simp only [thetaSum, hc, Option.getD_some, List.length_cons, Option.some.injEq, Prod.mk.injEq]
    refine ⟨by ring, by ring, by ring⟩

theorem friCombine_honest [DecidableEq F] (initial : OMap (FriInitialProof F Path))
    (P : OMap (List (List F))) (theta p0 p1 : F) (j : Nat) (s : F × F) (ix : Nat × Nat)
    (hp0 : (if ix.1 < ix.2 then s.1 else s.2) = p0) (hp1 : (if ix.1 < ix.2 then s.2 else s.1) = p1)
    (hop : ∀ id c, batchPoly P id = some c →
      friOpened initial id j = some (evalPoly c p0, evalPoly c p1)) :
    ∀ (items : List (List (Nat × Nat) × F × List F)) (acc : F) (y : F × F),
    (∀ it ∈ items, (∀ id ∈ it.1, ∃ c, batchPoly P id = some c) ∧
      evalPoly it.2.2 p0 ≠ 0 ∧ evalPoly it.2.2 p1 ≠ 0) →
    friCombine initial theta s ix j items acc y =
      some (y.1 + quotientValue P theta p0 items acc, y.2 + quotientValue P theta p1 items acc)
  | [], acc, y, _ => by simp [friCombine, quotientValue]
  | (ids, u, den) :: items, acc, y, h => by
    obtain ⟨h1, h2, h3⟩ := h (ids, u, den) (by simp)
    have ih := friCombine_honest initial P theta p0 p1 j s ix hp0 hp1 hop items
      (acc * theta ^ ids.length)
      (y.1 + (0 + thetaSum P theta p0 ids acc - u) * (evalPoly den p0)⁻¹,
        y.2 + (0 + thetaSum P theta p1 ids acc - u) * (evalPoly den p1)⁻¹)
      fun it h' => h it (by simp [h'])
    simp only at h1 h2 h3
    simp only [friCombine, friCombineStep_fold initial P theta p0 p1 j hop ids acc 0 0 h1,
      Option.bind_eq_bind, Option.bind_some, hp0, hp1, h2, h3, or_self, if_false]
    rw [ih]
    simp only [quotientValue, Option.some.injEq, Prod.mk.injEq, div_eq_mul_inv]
    refine ⟨by ring, by ring⟩

/-! ## queries -/

/-- If the prover's query is defined at all, the index is found. -/
theorem friQueryIndex_spec [DecidableEq F] (hL : L.Lawful A) (n : Nat) (hn : n ≤ A) (x : F)
    (h : (L.domain n).elem (friQueryIndex (L.domain n) x) = x) :
    friQueryIndex (L.domain n) x < 2 ^ n := by
  unfold friQueryIndex at *
  rw [show (L.domain n).size = 2 ^ n from rfl] at *
  cases hf : (List.range (2 ^ n)).find? fun i => (L.domain n).elem i = x with
  | some i =>
    rw [Option.getD_some]
    exact List.mem_range.mp (List.mem_of_find?_eq_some hf)
  | none =>
    rw [hf, Option.getD_none] at h
    rw [List.find?_eq_none] at hf
    have := hf 0 (List.mem_range.mpr (Nat.pow_pos (by norm_num)))
    rw [← elem_mod hL n hn, Nat.mod_self] at h
    simp [h] at this

theorem forall₂_mem_right {α β : Type} {R : α → β → Prop} {l : List α} {l' : List β}
    (h : List.Forall₂ R l l') (b : β) (hb : b ∈ l') : ∃ a ∈ l, R a b := by
  induction h with
  | nil => simp at hb
  | cons h _ ih =>
    rcases List.mem_cons.mp hb with rfl | hb
    · exact ⟨_, by simp, h⟩
    · obtain ⟨a, ha, hR⟩ := ih hb
      exact ⟨a, by simp [ha], hR⟩

theorem friQuery_honest [DecidableEq F] [DecidableEq Root] (hL : L.Lawful A)
    (M : MerkleLib F Tree Root Path) (hM : M.Lawful) (T : FriTranscript S F Root)
    (prm : FriParams F) (n : Nat) (g : OMap (List (FriPoly F))) (P : OMap (List (List F)))
    (gTrees : OMap Tree) (commitments : OMap Root) (theta : F)
    (items : List (List (Nat × Nat) × F × List F)) (cQ : List F)
    (hS : FriSetup L M prm A n g P gTrees commitments theta items cQ)
    (s0 : Nat) (rest : List Nat) (hsteps : prm.stepList = s0 :: rest)
    (hpos : ∀ s ∈ s0 :: rest, 1 ≤ s) (hsum : (s0 :: rest).sum = prm.r)
    (alphas : List F) (trees : List Tree) (fs : List (FriPoly F)) (final : List F)
    (hH : FriHonest L M n (s0 :: rest) 0 cQ alphas trees fs)
    (hfinal : ∀ x, evalPoly final x = evalPoly (foldAll alphas cQ) x) (st : S) :
    (∀ st' q, friQuery L M T prm g gTrees trees fs final st = some (st', q) →
      friVerifyQuery M T prm commitments theta items alphas (trees.map M.root) final q st =
        some (true, st')) ∧
    ((∃ i, (T.challenge st).2 ^ ((prm.modulus - 1) / 2 ^ n) = (L.domain n).elem i) →
      ∃ st' q, friQuery L M T prm g gTrees trees fs final st = some (st', q) ∧
        st' = (T.challenge st).1) := by
  have hsz : ∀ k, (L.domain k).size = 2 ^ k := fun _ => rfl
  have hs1 := hpos s0 (by simp)
  have hr := hS.rounds
  have hA := hS.adicity
  simp only [List.sum_cons] at hsum
  obtain ⟨s, rfl⟩ : ∃ k, s0 = k + 1 := ⟨s0 - 1, by omega⟩
  obtain ⟨m, rfl⟩ : ∃ m, n = m + 1 := ⟨n - 1, by omega⟩
  have hms : s ≤ m := by omega
  have hD0 := hS.domains 0 (by omega)
  rw [Nat.sub_zero] at hD0
  have hst0 : prm.stepList[0]? = some (s + 1) := by rw [hsteps]; rfl
  set x := (T.challenge st).2 ^ ((prm.modulus - 1) / 2 ^ (m + 1)) with hx
  -- everything follows once the index is found
  have key : (L.domain (m + 1)).elem (friQueryIndex (L.domain (m + 1)) x) = x →
      ∃ q, friQuery L M T prm g gTrees trees fs final st = some ((T.challenge st).1, q) ∧
        friVerifyQuery M T prm commitments theta items alphas (trees.map M.root) final q st =
          some (true, (T.challenge st).1) := by
    intro hxe
    have hlt := friQueryIndex_spec hL (m + 1) hA x hxe
    set xi := friQueryIndex (L.domain (m + 1)) x with hxi
    have htrees : ∀ k cs, (k, cs) ∈ P → gTrees.find k = some (M.build (batchLeaves L m s cs)) ∧
        commitments.find k = some (M.root (M.build (batchLeaves L m s cs))) := by
      intro k cs hk
      obtain ⟨⟨k', fs'⟩, hm, hk', hf⟩ := forall₂_mem_right hS.batches (k, cs) hk
      simp only at hk' hf
      subst hk'
      obtain ⟨tree, s0, h0, h1, h2, h3⟩ := hS.trees k' fs' hm
      rw [hst0] at h0
      obtain rfl := Option.some.inj h0
      rw [friPrecommitBatch_honest hL M m s hms (by omega) fs' cs hf] at h1
      obtain rfl := Option.some.inj h1
      exact ⟨h2, h3⟩
    have hinit := friInitialProofs_honest hL M m s xi hms (by omega) hlt gTrees g P hS.batches
      fun k cs h => (htrees k cs h).1
    obtain ⟨order, ho, hre⟩ := reorder_cosetVals (L := L) m s xi hms hlt
    have hchk := friCheckInitial_honest (L := L) M hM m s xi hms hlt commitments order hre P
      fun k cs h => (htrees k cs h).2
    have hcalc := calculateS_eq (L := L) m s xi hlt x hxe
    have hp : 2 ^ (s + 1) / 2 = 2 ^ s := two_pow_succ_half s
    have hy : ((List.range (2 ^ s)).mapM fun j => do
          let sj ← ((cosetPairs m xi s).map fun p =>
            ((L.domain (m + 1)).elem p.1, (L.domain (m + 1)).elem p.2))[j]?
          let ixj ← (cosetPairs m xi s)[j]?
          friCombine (initialOf L M m s xi P) theta sj ixj j items 1 (0, 0)) =
        some (cosetVals L m cQ xi s) := by
      unfold cosetVals
      refine mapM_eq_some_map _ _ _ fun j hj => ?_
      have hj' := List.mem_range.mp hj
      obtain ⟨p1, p2, _⟩ := pair_point hL m xi j (by omega)
      have hcj : (cosetPairs m xi s)[j]? = some (cosetIdx (2 ^ (m + 1)) xi j,
          pairedIndex (cosetIdx (2 ^ (m + 1)) xi j) (2 ^ (m + 1))) := by
        simp [cosetPairs, hj']
      simp only [List.getElem?_map, hcj, Option.map_some, Option.bind_eq_bind, Option.bind_some]
      rw [friCombine_honest (initialOf L M m s xi P) P theta _ _ j _ _ p1 p2
        (fun id c hc => friOpened_honest M m s xi j hj' P id c hc) items 1 (0, 0)
        (fun it hit => ⟨hS.ids it hit, hS.dens it hit _, hS.dens it hit _⟩)]
      simp only [zero_add, hS.quotient]
    obtain ⟨rps, hrps, w', hw', hfin⟩ := friRounds_honest hL M hM prm (m + 1) prm.r hS.domains hr hA
      final alphas rest (s + 1) 0 cQ alphas trees fs
      ⟨0, x, xi, 2 ^ (m + 1), cosetVals L m cQ xi s⟩ hpos (by simp only [List.sum_cons]; omega) hH
      (fun i _ => by rw [zero_add]) hfinal rfl hlt hxe rfl rfl
    refine ⟨⟨initialOf L M m s xi P, rps⟩, ?_, ?_⟩
    · unfold friQuery
      simp only [hD0, hst0, Option.bind_eq_bind, Option.bind_some, hsz, ← hx, ← hxi, hcalc]
      rw [hinit, hsteps, hrps]
      rfl
    · unfold friVerifyQuery
      simp only [hD0, hst0, Option.bind_eq_bind, Option.bind_some, hsz, ← hx, ← hxi, hcalc, ho, hchk,
        if_true, hp]
      simp only [Option.bind_eq_bind] at hy
      rw [hy]
      simp only [Option.bind_some, hsteps, hw', hfin]
  constructor
  · intro st' q hq
    by_cases hxe : (L.domain (m + 1)).elem (friQueryIndex (L.domain (m + 1)) x) = x
    · obtain ⟨q', hq', hv⟩ := key hxe
      rw [hq'] at hq
      obtain ⟨rfl, rfl⟩ := Prod.mk.inj (Option.some.inj hq)
      exact hv
    · exfalso
      unfold friQuery at hq
      simp only [hD0, hst0, Option.bind_eq_bind, Option.bind_some, hsz, ← hx] at hq
      unfold calculateS at hq
      simp only [if_neg hxe] at hq
      cases hc : cosetIndices (friQueryIndex (L.domain (m + 1)) x) (L.domain (m + 1)).size (s + 1) <;>
        simp [hc] at hq
  · rintro ⟨i, hi⟩
    have hxe : (L.domain (m + 1)).elem (friQueryIndex (L.domain (m + 1)) x) = x := by
      unfold friQueryIndex
      cases hf : (List.range (L.domain (m + 1)).size).find? fun i => (L.domain (m + 1)).elem i = x with
      | some j =>
        rw [Option.getD_some]
        simpa using List.find?_some hf
      | none =>
        rw [List.find?_eq_none] at hf
        exfalso
        refine hf (i % 2 ^ (m + 1)) (List.mem_range.mpr (Nat.mod_lt _ (Nat.pow_pos (by norm_num)))) ?_
        rw [elem_mod hL (m + 1) hA]
        simpa using hi.symm
    obtain ⟨q, hq, _⟩ := key hxe
    exact ⟨_, q, hq, rfl⟩

theorem friQueries_honest [DecidableEq F] [DecidableEq Root] (hL : L.Lawful A)
    (M : MerkleLib F Tree Root Path) (hM : M.Lawful) (T : FriTranscript S F Root)
    (prm : FriParams F) (n : Nat) (g : OMap (List (FriPoly F))) (P : OMap (List (List F)))
    (gTrees : OMap Tree) (commitments : OMap Root) (theta : F)
    (items : List (List (Nat × Nat) × F × List F)) (cQ : List F)
    (hS : FriSetup L M prm A n g P gTrees commitments theta items cQ)
    (s0 : Nat) (rest : List Nat) (hsteps : prm.stepList = s0 :: rest)
    (hpos : ∀ s ∈ s0 :: rest, 1 ≤ s) (hsum : (s0 :: rest).sum = prm.r)
    (alphas : List F) (trees : List Tree) (fs : List (FriPoly F)) (final : List F)
    (hH : FriHonest L M n (s0 :: rest) 0 cQ alphas trees fs)
    (hfinal : ∀ x, evalPoly final x = evalPoly (foldAll alphas cQ) x) :
    ∀ (k : Nat) (st st' : S) (qs : List (FriQueryProof F Path)),
    friQueries L M T prm g gTrees trees fs final k st = some (st', qs) →
    friVerifyQueries M T prm commitments theta items alphas (trees.map M.root) final k qs st =
      some (true, st') := by
  intro k
  induction k with
  | zero =>
    intro st st' qs h
    simp only [friQueries, Option.some.injEq, Prod.mk.injEq] at h
    simp [friVerifyQueries, h.1]
  | succ k ih =>
    intro st st' qs h
    rw [friQueries] at h
    cases h1 : friQuery L M T prm g gTrees trees fs final st with
    | none => simp [h1] at h
    | some r1 =>
      obtain ⟨st1, q⟩ := r1
      simp only [h1, Option.bind_eq_bind, Option.bind_some] at h
      cases h2 : friQueries L M T prm g gTrees trees fs final k st1 with
      | none => simp [h2] at h
      | some r2 =>
        obtain ⟨st2, qs'⟩ := r2
        simp only [h2, Option.bind_some, Option.some.injEq, Prod.mk.injEq] at h
        obtain ⟨rfl, rfl⟩ := h
        have hv := (friQuery_honest hL M hM T prm n g P gTrees commitments theta items cQ hS s0 rest
          hsteps hpos hsum alphas trees fs final hH hfinal st).1 st1 q h1
        simp only [friVerifyQueries, List.head?_cons, List.tail_cons, Option.bind_eq_bind,
          Option.bind_some, hv, if_true]
        exact ih st1 st2 qs' h2

theorem friQueries_defined [DecidableEq F] [DecidableEq Root] (hL : L.Lawful A)
    (M : MerkleLib F Tree Root Path) (hM : M.Lawful) (T : FriTranscript S F Root)
    (prm : FriParams F) (n : Nat) (g : OMap (List (FriPoly F))) (P : OMap (List (List F)))
    (gTrees : OMap Tree) (commitments : OMap Root) (theta : F)
    (items : List (List (Nat × Nat) × F × List F)) (cQ : List F)
    (hS : FriSetup L M prm A n g P gTrees commitments theta items cQ)
    (s0 : Nat) (rest : List Nat) (hsteps : prm.stepList = s0 :: rest)
    (hpos : ∀ s ∈ s0 :: rest, 1 ≤ s) (hsum : (s0 :: rest).sum = prm.r)
    (alphas : List F) (trees : List Tree) (fs : List (FriPoly F)) (final : List F)
    (hH : FriHonest L M n (s0 :: rest) 0 cQ alphas trees fs)
    (hfinal : ∀ x, evalPoly final x = evalPoly (foldAll alphas cQ) x)
    (hch : ∀ st, ∃ i, (T.challenge st).2 ^ ((prm.modulus - 1) / 2 ^ n) = (L.domain n).elem i) :
    ∀ (k : Nat) (st : S), (friQueries L M T prm g gTrees trees fs final k st).isSome := by
  intro k
  induction k with
  | zero => intro st; rfl
  | succ k ih =>
    intro st
    obtain ⟨st1, q, h1, _⟩ := (friQuery_honest hL M hM T prm n g P gTrees commitments theta items cQ hS
      s0 rest hsteps hpos hsum alphas trees fs final hH hfinal st).2 (hch st)
    obtain ⟨r2, h2⟩ := Option.isSome_iff_exists.mp (ih st1)
    simp [friQueries, h1, h2]

theorem represents_final (hL : L.Lawful A) (n : Nat) (hn : n ≤ A) (c : List F) (hc : c ≠ [])
    (hlen : c.length ≤ 2 ^ n) (f : FriPoly F) (h : f.Represents (L.domain n) c) :
    f.final L ≠ [] ∧ (f.final L).length ≤ c.length ∧ ∀ x, evalPoly (f.final L) x = evalPoly c x := by
  have := List.length_pos_of_ne_nil hc
  cases f with
  | coeff c' =>
    obtain rfl := h
    exact ⟨hc, le_rfl, fun _ => rfl⟩
  | dfs v =>
    obtain rfl := h
    obtain ⟨h1, h2, h3⟩ := hL.coefficients n hn c hlen
    exact ⟨h1, by simp only [FriPoly.final]; omega, h3⟩

/-- what `check_step_list` checks -/
theorem checkStepList_iff (steps : List Nat) (r : Nat) :
    checkStepList steps r = true ↔
      (∀ s ∈ steps, 1 ≤ s ∧ s ≤ 10) ∧ steps.sum = r ∧ steps.getLast? = some 1 := by
  unfold checkStepList
  by_cases h0 : steps = []
  · simp [h0]
  · rw [if_neg (by simpa using h0)]
    by_cases h1 : steps.any fun s => decide (s = 0 ∨ 10 < s)
    · rw [if_pos h1]
      rw [List.any_eq_true] at h1
      obtain ⟨s, hs, h⟩ := h1
      simp only [Bool.false_eq_true, false_iff, not_and]
      intro h'
      have := h' s hs
      simp only [decide_eq_true_eq] at h
      omega
    · rw [if_neg h1]
      have h2 : ∀ s ∈ steps, 1 ≤ s ∧ s ≤ 10 := by
        intro s hs
        by_contra h
        refine h1 (List.any_eq_true.mpr ⟨s, hs, ?_⟩)
        simp only [decide_eq_true_eq]
        omega
      by_cases h3 : steps.sum = r
      · simp only [h3, ne_eq, not_true_eq_false, if_false, decide_eq_true_eq, true_and]
        exact ⟨fun h => ⟨h2, h⟩, fun h => h.2⟩
      · simp [h3]

theorem friPrecommit_honest (hL : L.Lawful A) (M : MerkleLib F Tree Root Path) (n : Nat) (hn : n ≤ A)
    (s0 : Nat) (cQ : List F) (Q0 Q : FriPoly F) (qTree : Tree) (hQ : Q0.Has L n cQ)
    (hpre : friPrecommit L M Q0 (L.domain n) s0 = some (qTree, Q)) :
    ∃ leaves, friLeaves [(L.domain n).evals cQ] (2 ^ n) s0 = some leaves ∧
      qTree = M.build leaves ∧ Q.Represents (L.domain n) cQ := by
  unfold friPrecommit at hpre
  rw [has_on hL n hn cQ Q0 hQ] at hpre
  simp only [Option.bind_eq_bind, Option.bind_some] at hpre
  rw [show (L.domain n).size = 2 ^ n from rfl] at hpre
  cases hl : friLeaves [(L.domain n).evals cQ] (2 ^ n) s0 with
  | none => rw [hl] at hpre; simp at hpre
  | some leaves =>
    rw [hl, Option.bind_some, Option.some.injEq, Prod.mk.injEq] at hpre
    obtain ⟨rfl, rfl⟩ := hpre
    refine ⟨leaves, rfl, rfl, ?_⟩
    cases Q0 with
    | coeff c => exact hQ.1
    | dfs v => rfl

theorem friDegreeOk_honest (prm : FriParams F) (d : Nat) (hd : prm.maxDegree + 1 = 2 ^ d)
    (hrd : prm.r ≤ d + 1) (final : List F) (hne : final ≠ [])
    (hlen : final.length ≤ 2 ^ (d + 1 - prm.r)) : friDegreeOk prm final = true := by
  have h0 : final.length ≠ 0 := by simpa using hne
  unfold friDegreeOk
  simp only [hd, Nat.log2_two_pow, if_neg h0, if_neg (show ¬ d + 1 < prm.r by omega),
    decide_eq_true_eq]
  omega

theorem foldAll_ne_nil (as : List F) : ∀ c : List F, c ≠ [] → foldAll as c ≠ [] := by
  induction as with
  | nil => exact fun _ h => h
  | cons a as ih => exact fun c h => ih (foldList a c) (foldList_ne_nil a c h)

theorem has_length (n : Nat) (c : List F) (f : FriPoly F) (h : f.Has L n c) : c.length ≤ 2 ^ n := by
  cases f with
  | coeff c' => exact h.2
  | dfs v =>
    obtain ⟨k, hk, _, hl⟩ := h
    exact hl.trans (Nat.pow_le_pow_right (by norm_num) hk)

/-- The commit phase of the whole protocol. -/
theorem friProve_commit (hL : L.Lawful A) (M : MerkleLib F Tree Root Path)
    (T : FriTranscript S F Root) (prm : FriParams F) (n : Nat)
    (hA : n ≤ A) (hr : prm.r ≤ n) (hD : ∀ t < prm.r, prm.D[t]? = some (L.domain (n - t)))
    (cQ : List F) (hchk : checkStepList prm.stepList prm.r = true) (hcQ : cQ ≠ [])
    (Q0 Q : FriPoly F) (qTree : Tree) (s0 : Nat) (hs0 : prm.stepList[0]? = some s0)
    (hQ : Q0.Has L n cQ) (hpre : friPrecommit L M Q0 (L.domain n) s0 = some (qTree, Q)) (st : S) :
    ∃ rest st1 trees as fs g', prm.stepList = s0 :: rest ∧ (∀ s ∈ s0 :: rest, 1 ≤ s) ∧
      (s0 :: rest).sum = prm.r ∧
      friCommitPhase L M T prm (s0 :: rest) st Q qTree 0 = some (st1, trees, as, fs) ∧
      FriHonest L M n (s0 :: rest) 0 cQ as trees fs ∧
      friAlphas T (s0 :: rest) (trees.map M.root) st = some (st1, as) ∧ fs.getLast? = some g' ∧
      g'.final L ≠ [] ∧ (∀ e, cQ.length ≤ 2 ^ e → (g'.final L).length ≤ 2 ^ (e - prm.r)) ∧
      ∀ x, evalPoly (g'.final L) x = evalPoly (foldAll as cQ) x := by
  obtain ⟨hpos, hsum, hlast⟩ := (checkStepList_iff _ _).mp hchk
  obtain ⟨rest, hsteps⟩ : ∃ rest, prm.stepList = s0 :: rest := by
    cases hl : prm.stepList with
    | nil => rw [hl] at hs0; simp at hs0
    | cons a l => rw [hl] at hs0; simp at hs0; exact ⟨l, by rw [hs0]⟩
  obtain ⟨leaves, hleaves, rfl, hrep⟩ := friPrecommit_honest hL M n hA s0 cQ Q0 Q qTree hQ hpre
  have hlen := has_length n cQ Q0 hQ
  have hpos' : ∀ s ∈ s0 :: rest, 1 ≤ s := fun s hs => (hpos s (by rw [hsteps]; exact hs)).1
  rw [hsteps] at hsum
  obtain ⟨st1, trees, as, fs, hcp, hH, has, hal, g', hg', hgr'⟩ := friCommitPhase_honest hL M T prm n
    prm.r hD hr hA rest s0 st Q 0 cQ leaves hpos' (by omega) hcQ
    (by simpa using hlen) (by simpa using hrep) (by simpa using hleaves)
  have hla : as.length = prm.r := by rw [has, hsum]
  have hl2 := length_foldAll as cQ n hlen
  rw [hla] at hl2
  obtain ⟨f1, f2, f3⟩ := represents_final hL (n - prm.r) (by omega) (foldAll as cQ)
    (foldAll_ne_nil as cQ hcQ) hl2 g' hgr'
  refine ⟨rest, st1, trees, as, fs, g', hsteps, hpos', hsum, hcp, hH, hal, hg', f1, fun e he => ?_, f3⟩
  have := length_foldAll as cQ e he
  rw [hla] at this
  exact f2.trans this

end Crypto3Zk
