import Verif.Lemmas.PlaceholderTotal
import Verif.Lemmas.PlaceholderLpc

/-!
# LPC accepts the calls of a prover
-/

set_option linter.unusedSectionVars false

namespace Crypto3Zk

variable {F : Type} [Field F] [DecidableEq F] {S Tree Root Path : Type} [DecidableEq Root]
variable {L : FftLib F} {A : Nat}

theorem mem_committedBy (k : Nat) (a : List (LpcOp F)) : ∀ done : List Nat,
    k ∈ committedBy done a ↔ k ∈ done ∨ LpcOp.commit k ∈ a := by
  induction a with
  | nil => intro done; simp [committedBy]
  | cons op a ih =>
    intro done
    cases op with
    | commit k' =>
      simp only [committedBy, ih, List.mem_cons, LpcOp.commit.injEq]
      tauto
    | _ => simp [committedBy, ih]

theorem lpc_precommit_defined (hL : L.Lawful A) (M : MerkleLib F Tree Root Path) {N : Nat} (hN : N ≤ A)
    {s : Nat} (hs : 1 ≤ s ∧ s ≤ N) (fs : List (FriPoly F)) (hf : ∀ f ∈ fs, ∃ c, f.Has L N c) :
    ∃ tree, friPrecommitBatch L M fs (L.domain N) s = some tree := by
  obtain ⟨n, rfl⟩ : ∃ n, N = n + 1 := ⟨N - 1, by omega⟩
  obtain ⟨s, rfl⟩ : ∃ s', s = s' + 1 := ⟨s - 1, by omega⟩
  have : ∃ cs : List (List F), fs.mapM (fun f => f.on L (L.domain (n + 1))) =
      some (cs.map (L.domain (n + 1)).evals) := by
    induction fs with
    | nil => exact ⟨[], rfl⟩
    | cons f fs ih =>
      obtain ⟨cs, hcs⟩ := ih fun g hg => hf g (List.mem_cons_of_mem _ hg)
      obtain ⟨c, hc⟩ := hf f (by simp)
      refine ⟨c :: cs, ?_⟩
      rw [List.mapM_cons, hcs, has_on hL (n + 1) hN c f hc]
      rfl
  obtain ⟨cs, hcs⟩ := this
  have hl := friLeaves_eq (L := L) n s (by omega) cs
  unfold friPrecommitBatch
  rw [hcs]
  simp only [Option.bind_eq_bind, Option.bind_some]
  rw [show (L.domain (n + 1)).size = 2 ^ (n + 1) from rfl, hl]
  exact ⟨_, rfl⟩

theorem lpc_append_defined {M : MerkleLib F Tree Root Path} {prm : FriParams F} {h : List (LpcOp F)}
    {s : LpcScheme F Tree} (hs : runLpc L M prm h = some s) (hb : ∀ k m, LpcOp.batchSize k m ∉ h) (k : Nat)
    (hc : LpcOp.commit k ∉ h) (fs : List (FriPoly F)) :
    ∃ s', LpcOp.apply L M prm s (.append k fs) = some s' := by
  have inv := lpc_run L M prm h s hs
  have cinv := container_run _ s.ev inv.run
  have hl : s.ev.locked.getD k false = false := by
    by_contra hne
    rw [Bool.not_eq_false] at hne
    rcases (cinv.locked k).1 hne with hk | ⟨m, hm⟩
    · exact hc ((committed_container L k _).1 hk)
    · exact hb k m ((batchSize_container L k m _).1 hm)
  have : ∃ ev, s.ev.appendToBatch k (fs.map fun f => f.final L) = some ev := by
    unfold PolysEvaluator.appendToBatch
    cases hf : s.ev.locked.find k with
    | none => simp [OMap.getD, OMap.find_insert]
    | some b => simp [hl]
  obtain ⟨ev, hev⟩ := this
  simp [LpcOp.apply, LpcScheme.append, hev]

theorem lpc_commit_defined (hL : L.Lawful A) {M : MerkleLib F Tree Root Path} {prm : FriParams F} {N D s0 : Nat}
    (hprm : LpcParams L prm A N D) (hs0 : prm.stepList[0]? = some s0) (hs1 : 1 ≤ s0 ∧ s0 ≤ N)
    {h : List (LpcOp F)}
    {s : LpcScheme F Tree} (hs : runLpc L M prm h = some s) (k : Nat)
    (hf : ∀ f ∈ lpcAppended k h, ∃ c, f.Has L N c) :
    ∃ s', LpcOp.apply L M prm s (.commit k) = some s' := by
  have inv := lpc_run L M prm h s hs
  obtain ⟨tree, ht⟩ := lpc_precommit_defined hL M hprm.adicity hs1 (lpcAppended k h) hf
  have hD : prm.D[0]? = some (L.domain N) := hprm.domains 0 (by have := hprm.rounds; omega)
  have hfo : (s.forms.insert k (s.forms.getD k [])).getD k [] = lpcAppended k h := by
    rw [OMap.getD, OMap.find_insert, if_pos rfl, Option.getD_some, inv.forms k]
  simp [LpcOp.apply, LpcScheme.commit, hD, hs0, hfo, ht]

theorem lpc_points_defined {M : MerkleLib F Tree Root Path} {prm : FriParams F} {h : List (LpcOp F)}
    {s : LpcScheme F Tree} (hs : runLpc L M prm h = some s) (k : Nat)
    (hc : LpcOp.commit k ∈ h) (xs : List F) :
    ∃ s', LpcOp.apply L M prm s (.points k xs) = some s' := by
  have inv := lpc_run L M prm h s hs
  have cinv := container_run _ s.ev inv.run
  have hl : s.ev.locked.getD k false = true := (cinv.locked k).2 (Or.inl ((committed_container L k _).2 hc))
  simp [LpcOp.apply, PolysEvaluator.appendEvalPoints, hl]

theorem lpc_pointsTo_defined {M : MerkleLib F Tree Root Path} {prm : FriParams F} {h : List (LpcOp F)}
    {s : LpcScheme F Tree} (hs : runLpc L M prm h = some s) (hb : ∀ k m, LpcOp.batchSize k m ∉ h) (k i : Nat)
    (hc : LpcOp.commit k ∈ h) (hi : i < (lpcAppended k h).length) (xs : List F) :
    ∃ s', LpcOp.apply L M prm s (.pointsTo k i xs) = some s' := by
  have inv := lpc_run L M prm h s hs
  have cinv := container_run _ s.ev inv.run
  have hl : s.ev.locked.getD k false = true := (cinv.locked k).2 (Or.inl ((committed_container L k _).2 hc))
  have hp := cinv.points k (fun m hm => hb k m ((batchSize_container L k m _).1 hm))
    ((committed_container L k _).2 hc)
  have hlen : i < (s.ev.points.getD k []).length := by
    rw [OMap.getD, hp, Option.getD_some, List.length_map, List.length_range, appended_container,
      List.length_map]
    exact hi
  simp [LpcOp.apply, PolysEvaluator.appendEvalPointsTo, hl, List.getElem?_eq_getElem hlen]

/-- LPC accepts the calls of a prover, if the first step of FRI is at least one and at most the logarithm of
the size of the first domain. -/
theorem lpcComm_total (hL : L.Lawful A) (M : MerkleLib F Tree Root Path) (T : FriTranscript S F Root)
    {prm : FriParams F} {N D s0 : Nat} (hprm : LpcParams L prm A N D) (hs0 : prm.stepList[0]? = some s0)
    (hs1 : 1 ≤ s0 ∧ s0 ≤ N) (dfs : Bool) (fuel nonce : Nat) :
    (lpcComm L M T prm dfs fuel nonce).Total (fun f c => f.Has L N c) (prm.maxDegree + 1) := by
  intro pre hp pts o0 st data hcalls hpre hdata
  have hnosz : ∀ k m, LpcOp.batchSize k m ∉ pre ++ hp ++ pts := by
    intro k m hm
    rcases List.mem_append.1 hm with hm | hm
    · rcases List.mem_append.1 hm with hm | hm
      · rcases hcalls.preOps _ hm with ⟨_, _, h⟩ | ⟨_, h⟩ | ⟨_, h⟩ <;> cases h
      · rcases hcalls.proverOps _ hm with ⟨_, _, h⟩ | ⟨_, h⟩ <;> cases h
    · rcases hcalls.pointOps _ hm with ⟨_, _, h⟩ | ⟨_, _, _, h⟩ <;> cases h
  have hnocp : ∀ a b : List (LpcOp F), pts = a ++ b → ∀ k, lpcAppended k (pre ++ hp ++ a) =
      lpcAppended k (pre ++ hp) := by
    intro a b hab k
    rw [lpcAppended_append, lpcAppended_none k a, List.append_nil]
    intro fs hfs
    rcases hcalls.pointOps (.append k fs) (by rw [hab]; exact List.mem_append_left _ hfs) with
      ⟨_, _, h⟩ | ⟨_, _, _, h⟩ <;> cases h
  -- the batches
  have h1 : ∀ a b : List (LpcOp F), hp = a ++ b → ∃ s, runLpc L M prm (pre ++ a) = some s := by
    intro a
    induction a using List.reverseRecOn with
    | nil => intro b _; exact ⟨o0, by rw [List.append_nil]; exact hpre⟩
    | append_singleton a op ih =>
      intro b hab
      obtain ⟨s, hs⟩ := ih (op :: b) (by rw [hab]; simp)
      have hop : op ∈ hp := by rw [hab]; simp
      rw [← List.append_assoc, runLpc_snoc, hs, Option.bind_some]
      have hord := hcalls.order
      rw [hab, show pre ++ (a ++ [op] ++ b) = (pre ++ a) ++ (op :: b) by simp, inOrder_append] at hord
      have hord := hord.2
      rcases hcalls.proverOps op hop with ⟨k, fs, rfl⟩ | ⟨k, rfl⟩
      · refine lpc_append_defined hs (fun k m hm => hnosz k m ?_) k ?_ fs
        · rw [hab]
          simp only [List.mem_append] at hm ⊢
          tauto
        · have := hord.1
          rw [mem_committedBy] at this
          tauto
      · refine lpc_commit_defined hL hprm hs0 hs1 hs k fun f hf => ?_
        obtain ⟨c, hc, _⟩ := hcalls.polys k hop f (by
          rw [hab, show pre ++ (a ++ [LpcOp.commit k] ++ b) = (pre ++ a) ++ (LpcOp.commit k :: b) by simp,
            lpcAppended_append]
          exact List.mem_append_left _ hf)
        exact ⟨c, hc⟩
  have h2 : ∀ a b : List (LpcOp F), pts = a ++ b → ∃ s, runLpc L M prm (pre ++ hp ++ a) = some s := by
    intro a
    induction a using List.reverseRecOn with
    | nil => intro b _; rw [List.append_nil]; exact h1 hp [] (by simp)
    | append_singleton a op ih =>
      intro b hab
      obtain ⟨s, hs⟩ := ih (op :: b) (by rw [hab]; simp)
      have hop : op ∈ pts := by rw [hab]; simp
      rw [← List.append_assoc, runLpc_snoc, hs, Option.bind_some]
      rcases hcalls.pointOps op hop with ⟨k, xs, rfl⟩ | ⟨k, i, xs, rfl⟩
      · exact lpc_points_defined hs k (List.mem_append_left _ (hcalls.points k xs hop)) xs
      · obtain ⟨hc, hi⟩ := hcalls.pointsTo k i xs hop
        refine lpc_pointsTo_defined hs (fun k m hm => hnosz k m ?_) k i (List.mem_append_left _ hc) ?_ xs
        · rw [hab]
          simp only [List.mem_append] at hm ⊢
          tauto
        · rw [hnocp a _ (by rw [hab, List.append_assoc])]
          exact hi
  obtain ⟨s, hs⟩ := h2 pts [] (by simp)
  have hset : ((lpcComm L M T prm dfs fuel nonce).setup o0 st data).2 =
      o0.withData (T.challenge st).2 data := rfl
  refine ⟨s.withData (T.challenge st).2 data, ?_, ?_⟩
  · rw [hset]
    show (hp ++ pts).foldlM (LpcOp.apply L M prm) _ = _
    have hpre' : pre.foldlM (LpcOp.apply L M prm) LpcScheme.new = some o0 := hpre
    rw [lpc_run_withData]
    rw [List.append_assoc, runLpc, List.foldlM_append, hpre'] at hs
    have hs' : (hp ++ pts).foldlM (LpcOp.apply L M prm) o0 = some s := hs
    rw [hs']
    rfl
  · intro k hk
    obtain ⟨_, _, tree, _, _, _, ht⟩ := (lpc_run L M prm _ s hs).trees k (by simp [hk])
    exact ⟨M.root tree, by rw [lpc_root_withData, ht]; rfl⟩

theorem lpc_fixed_marked {M : MerkleLib F Tree Root Path} {prm : FriParams F} (h : List (LpcOp F))
    (s : LpcScheme F Tree) (hs : runLpc L M prm h = some s) :
    ∀ e ∈ s.batchFixed, LpcOp.markFixed e.1 ∈ h := by
  induction h using List.reverseRecOn generalizing s with
  | nil =>
    simp only [runLpc, List.foldlM_nil, Option.pure_def, Option.some.injEq] at hs
    subst hs
    simp [LpcScheme.new]
  | append_singleton h op ih =>
    rw [runLpc_snoc] at hs
    obtain ⟨s1, h1, h2⟩ := Option.bind_eq_some_iff.1 hs
    have ih := ih s1 h1
    intro e he
    rw [List.mem_append]
    cases op with
    | append k' fs =>
      simp only [LpcOp.apply, LpcScheme.append, Option.bind_eq_bind, Option.bind_eq_some_iff,
        Option.some.injEq] at h2
      obtain ⟨_, _, rfl⟩ := h2
      exact .inl (ih e he)
    | commit k' =>
      simp only [LpcOp.apply, LpcScheme.commit, Option.bind_eq_bind, Option.map_eq_some_iff,
        Option.bind_eq_some_iff, Option.some.injEq] at h2
      obtain ⟨_, ⟨_, _, _, _, _, _, rfl⟩, rfl⟩ := h2
      exact .inl (ih e he)
    | points k' xs =>
      simp only [LpcOp.apply, Option.map_eq_some_iff] at h2
      obtain ⟨_, _, rfl⟩ := h2
      exact .inl (ih e he)
    | pointsTo k' i xs =>
      simp only [LpcOp.apply, Option.map_eq_some_iff] at h2
      obtain ⟨_, _, rfl⟩ := h2
      exact .inl (ih e he)
    | batchSize k' m =>
      simp only [LpcOp.apply, Option.some.injEq] at h2
      subst h2
      exact .inl (ih e he)
    | markFixed k' =>
      simp only [LpcOp.apply, LpcScheme.markFixed, Option.some.injEq] at h2
      subst h2
      rcases mem_insert_of _ _ _ _ he with rfl | he
      · exact .inr (by simp)
      · exact .inl (ih e he)

/-- LPC accepts the calls of a preprocessor. -/
theorem lpcComm_totalSetup (hL : L.Lawful A) (M : MerkleLib F Tree Root Path) (T : FriTranscript S F Root)
    {prm : FriParams F} {N D s0 : Nat} (hprm : LpcParams L prm A N D) (hs0 : prm.stepList[0]? = some s0)
    (hs1 : 1 ≤ s0 ∧ s0 ≤ N) (dfs : Bool) (fuel nonce : Nat) :
    (lpcComm L M T prm dfs fuel nonce).TotalSetup (fun f c => f.Has L N c) (prm.maxDegree + 1) := by
  intro pre hops hord hpolys hfix
  have hnosz : ∀ k m, LpcOp.batchSize k m ∉ pre := by
    intro k m hm
    rcases hops _ hm with ⟨_, _, h⟩ | ⟨_, h⟩ | ⟨_, h⟩ <;> cases h
  have h1 : ∀ a b : List (LpcOp F), pre = a ++ b → ∃ s, runLpc L M prm a = some s := by
    intro a
    induction a using List.reverseRecOn with
    | nil => intro b _; exact ⟨LpcScheme.new, rfl⟩
    | append_singleton a op ih =>
      intro b hab
      obtain ⟨s, hs⟩ := ih (op :: b) (by rw [hab]; simp)
      have hop : op ∈ pre := by rw [hab]; simp
      rw [runLpc_snoc, hs, Option.bind_some]
      rw [hab, show a ++ [op] ++ b = a ++ (op :: b) by simp, inOrder_append] at hord
      have hord := hord.2
      rcases hops op hop with ⟨k, fs, rfl⟩ | ⟨k, rfl⟩ | ⟨k, rfl⟩
      · refine lpc_append_defined hs (fun k m hm => hnosz k m ?_) k ?_ fs
        · rw [hab]
          simp only [List.mem_append] at hm ⊢
          tauto
        · have := hord.1
          rw [mem_committedBy] at this
          tauto
      · refine lpc_commit_defined hL hprm hs0 hs1 hs k fun f hf => ?_
        obtain ⟨c, hc, _⟩ := hpolys k hop f (by
          rw [hab, show a ++ [LpcOp.commit k] ++ b = a ++ (LpcOp.commit k :: b) by simp,
            lpcAppended_append]
          exact List.mem_append_left _ hf)
        exact ⟨c, hc⟩
      · exact ⟨_, rfl⟩
  obtain ⟨s, hs⟩ := h1 pre [] (by simp)
  have inv := lpc_run L M prm _ s hs
  have cinv := container_run _ s.ev inv.run
  refine ⟨s, hs, ?_, ?_⟩
  · intro k hk
    obtain ⟨_, _, tree, _, _, _, ht⟩ := inv.trees k hk
    exact ⟨M.root tree, by
      show (s.trees.find k).map M.root = _
      rw [ht]; rfl⟩
  · intro st
    have hfold : ∀ (l : List (Nat × Bool)) (m : OMap (List F)),
        (∀ e ∈ l, e ∈ s.batchFixed) → ∃ r, l.foldlM (fun (m : OMap (List F)) (e : Nat × Bool) =>
          if e.2 then do
            let polys ← s.ev.polys.find e.1
            some (m.insert e.1 (polys.map fun f => evalPoly f (T.challenge st).2))
          else some m) m = some r := by
      intro l
      induction l with
      | nil => intro m _; exact ⟨m, rfl⟩
      | cons e l ih =>
        intro m hl
        rw [List.foldlM_cons]
        have hk : e.1 ∈ s.ev.polys.keys := (cinv.keys e.1).2 (.inl ((committed_container L e.1 _).2
          (hfix e.1 (lpc_fixed_marked _ _ hs e (hl e (by simp))))))
        rw [← OMap.find_isSome_iff, Option.isSome_iff_exists] at hk
        obtain ⟨v, hv⟩ := hk
        by_cases he : e.2 = true
        · rw [if_pos he, hv]
          simp only [Option.bind_eq_bind, Option.bind_some]
          exact ih _ fun e' he' => hl e' (List.mem_cons_of_mem _ he')
        · rw [if_neg he]
          simp only [Option.bind_eq_bind, Option.bind_some]
          exact ih _ fun e' he' => hl e' (List.mem_cons_of_mem _ he')
    obtain ⟨r, hr⟩ := hfold s.batchFixed [] (fun _ h => h)
    refine ⟨r, ?_⟩
    show (s.preprocess T st).map Prod.snd = _
    have he : s.preprocess T st = (s.batchFixed.foldlM (fun (m : OMap (List F)) (e : Nat × Bool) =>
          if e.2 then do
            let polys ← s.ev.polys.find e.1
            some (m.insert e.1 (polys.map fun f => evalPoly f (T.challenge st).2))
          else some m) []).bind fun result => some ((T.challenge st).1, result) := rfl
    rw [he, hr]
    rfl

/-- What the constructor of the parameters of FRI checks of the list of steps gives the first step. -/
theorem first_step {prm : FriParams F} {N D : Nat} (hprm : LpcParams L prm A N D)
    (hsteps : checkStepList prm.stepList prm.r = true) :
    ∃ s0, prm.stepList[0]? = some s0 ∧ 1 ≤ s0 ∧ s0 ≤ N := by
  unfold checkStepList at hsteps
  cases hs : prm.stepList with
  | nil => simp [hs] at hsteps
  | cons s0 rest =>
    rw [hs] at hsteps
    simp only [List.isEmpty_cons, Bool.false_eq_true, if_false] at hsteps
    split_ifs at hsteps with g1 g2
    refine ⟨s0, rfl, ?_, ?_⟩
    · simp only [List.any_cons, Bool.or_eq_true, decide_eq_true_eq, not_or] at g1
      omega
    · push Not at g2
      have := hprm.rounds
      simp only [List.sum_cons] at g2
      omega

/-- LPC opens what a prover committed to. -/
theorem lpcComm_opens [Fintype F] (hL : L.Lawful A) (M : MerkleLib F Tree Root Path) (hM : M.Lawful)
    (T : FriTranscript S F Root) {prm : FriParams F} {N D : Nat} (hprm : LpcParams L prm A N D)
    (hsteps : checkStepList prm.stepList prm.r = true)
    (hcard : Fintype.card F = prm.modulus) (hdvd : 2 ^ N ∣ prm.modulus - 1)
    (hch : ∀ st, (T.challenge st).2 ≠ 0) (dfs : Bool) (fuel nonce : Nat)
    (hgrind : prm.useGrinding = true → ∀ st,
      (powGenerate T.toIntTranscript 32 prm.grindingParameter fuel st nonce).isSome) :
    (lpcComm L M T prm dfs fuel nonce).Opens (fun f c => f.Has L N c) (prm.maxDegree + 1)
      (OutsideDomain L N) (fun st => ∀ m, (L.domain N).elem m ≠ (T.challenge st).2) := by
  intro pre hp szs pts P sess o0 o st0 st data hpre hdata hok hrun
  set etha := (T.challenge st0).2 with hetha
  have hset : ((lpcComm L M T prm dfs fuel nonce).setup o0 st0 data).2 = o0.withData etha data := rfl
  have hrun0 : ∀ ops, (lpcComm L M T prm dfs fuel nonce).run (o0.withData etha data) ops =
      (runLpc L M prm (pre ++ ops)).map (·.withData etha data) := by
    intro ops
    show ops.foldlM (LpcOp.apply L M prm) _ = _
    rw [lpc_run_withData]
    have hpre' : pre.foldlM (LpcOp.apply L M prm) LpcScheme.new = some o0 := hpre
    rw [runLpc, List.foldlM_append, hpre']
    rfl
  rw [hset, hrun0] at hrun
  obtain ⟨sp, hsp, rfl⟩ := Option.map_eq_some_iff.1 hrun
  have hs1 : ∃ s, runLpc L M prm (pre ++ hp) = some s ∧ pts.foldlM (LpcOp.apply L M prm) s = some sp := by
    rw [← List.append_assoc, runLpc, List.foldlM_append] at hsp
    exact Option.bind_eq_some_iff.1 hsp
  obtain ⟨s, hs, hspts⟩ := hs1
  have hv1 : ∃ v, runLpc L M prm (pre ++ szs) = some v := by
    obtain ⟨v, hv⟩ := lpc_size_run (L := L) M prm szs sess.sizeOps o0
    refine ⟨v, ?_⟩
    have hpre' : pre.foldlM (LpcOp.apply L M prm) LpcScheme.new = some o0 := hpre
    rw [runLpc, List.foldlM_append, hpre']
    exact hv
  obtain ⟨v0, hv0⟩ := hv1
  obtain ⟨v, hv⟩ := points_follow (L := L) M prm pts sess.pointOps s v0 sp
    (lpc_points_follow M sess s v0 hs hv0) hspts
  have hvrun : runLpc L M prm (pre ++ (szs ++ pts)) = some v := by
    rw [← List.append_assoc, runLpc, List.foldlM_append]
    exact Option.bind_eq_some_iff.2 ⟨v0, hv0, hv⟩
  have lsess := lpc_session hprm sess hok
  refine C44_prover_defined hL M hM T prm N D _ _ P etha lsess sp v hsp hvrun data ?_ hsteps hcard hdvd hch dfs
    fuel nonce hgrind st
  intro k hk _
  have hk : LpcOp.markFixed k ∈ pre := by
    simpa [(sess.noSizes k 0).2.2, (sess.ptsNoCommit k).2.2.1] using hk
  obtain ⟨⟨st1, data'⟩, hp1, rfl⟩ := Option.map_eq_some_iff.1 hdata
  refine (C44_preprocess hL M T prm N hprm.adicity pre o0 o0 hpre st0 st1 _ hp1).2.2 k (P k) hk ?_
  have := sess.polys k
  rwa [lpcAppended_append, lpcAppended_none k hp (sess.once k (sess.fixedCommitted k hk)).2.1,
    List.append_nil] at this

end Crypto3Zk
