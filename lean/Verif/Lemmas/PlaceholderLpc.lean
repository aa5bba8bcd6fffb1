import Verif.Spec.Placeholder
import Verif.Props.LPC

/-!
# LPC as a commitment scheme of the placeholder proof system
-/

set_option linter.unusedSectionVars false

namespace Crypto3Zk

variable {F : Type} [Field F] [DecidableEq F] {S Tree Root Path : Type} [DecidableEq Root]
variable {L : FftLib F} {A : Nat}

/-- the object with other preprocessed data -/
def LpcScheme.withData (s : LpcScheme F Tree) (etha : F) (data : OMap (List F)) : LpcScheme F Tree :=
  { s with etha := etha, fixedValues := data }

theorem lpc_apply_withData (M : MerkleLib F Tree Root Path) (prm : FriParams F) (s : LpcScheme F Tree)
    (etha : F) (data : OMap (List F)) (op : LpcOp F) :
    LpcOp.apply L M prm (s.withData etha data) op =
      (LpcOp.apply L M prm s op).map (·.withData etha data) := by
  cases op with
  | append k fs =>
    simp only [LpcOp.apply, LpcScheme.append, LpcScheme.withData]
    cases s.ev.appendToBatch k (fs.map fun f => f.final L) <;> simp
  | commit k =>
    simp only [LpcOp.apply, LpcScheme.commit, LpcScheme.withData]
    cases prm.D[0]? with
    | none => simp
    | some D =>
      cases prm.stepList[0]? with
      | none => simp
      | some st =>
        simp only [Option.bind_eq_bind, Option.bind_some]
        cases friPrecommitBatch L M ((s.forms.insert k (s.forms.getD k [])).getD k []) D st <;> simp
  | points k xs =>
    simp only [LpcOp.apply, LpcScheme.withData]
    cases s.ev.appendEvalPoints k xs <;> simp
  | pointsTo k i xs =>
    simp only [LpcOp.apply, LpcScheme.withData]
    cases s.ev.appendEvalPointsTo k i xs <;> simp
  | batchSize k m => simp [LpcOp.apply, LpcScheme.withData]
  | markFixed k => simp [LpcOp.apply, LpcScheme.withData, LpcScheme.markFixed]

theorem lpc_run_withData (M : MerkleLib F Tree Root Path) (prm : FriParams F) (etha : F)
    (data : OMap (List F)) (ops : List (LpcOp F)) : ∀ s : LpcScheme F Tree,
    ops.foldlM (LpcOp.apply L M prm) (s.withData etha data) =
      (ops.foldlM (LpcOp.apply L M prm) s).map (·.withData etha data) := by
  induction ops with
  | nil => intro s; simp
  | cons op ops ih =>
    intro s
    simp only [List.foldlM_cons, lpc_apply_withData]
    cases LpcOp.apply L M prm s op with
    | none => rfl
    | some s' => simpa using ih s'

theorem lpc_size_run (M : MerkleLib F Tree Root Path) (prm : FriParams F) (ops : List (LpcOp F))
    (h : ∀ op ∈ ops, ∃ k m, op = .batchSize k m) : ∀ s : LpcScheme F Tree,
    ∃ s', ops.foldlM (LpcOp.apply L M prm) s = some s' := by
  induction ops with
  | nil => intro s; exact ⟨s, rfl⟩
  | cons op ops ih =>
    intro s
    obtain ⟨k, m, rfl⟩ := h op (by simp)
    simp only [List.foldlM_cons, LpcOp.apply, Option.bind_eq_bind, Option.bind_some]
    exact ih (fun op hop => h op (by simp [hop])) _

/-- whoever has at least the locked batches of another, with the same sizes, can ask for the same points -/
def PointsFollow (s v : PolysEvaluator F) : Prop :=
  ∀ k, s.locked.getD k false = true → v.locked.getD k false = true ∧
    (v.points.getD k []).length = (s.points.getD k []).length

theorem points_follow (M : MerkleLib F Tree Root Path) (prm : FriParams F) (ops : List (LpcOp F))
    (h : ∀ op ∈ ops, (∃ k xs, op = .points k xs) ∨ ∃ k i xs, op = .pointsTo k i xs) :
    ∀ s v s' : LpcScheme F Tree, PointsFollow s.ev v.ev →
    ops.foldlM (LpcOp.apply L M prm) s = some s' → ∃ v', ops.foldlM (LpcOp.apply L M prm) v = some v' := by
  induction ops with
  | nil => intro s v s' _ _; exact ⟨v, rfl⟩
  | cons op ops ih =>
    intro s v s' hr hs
    have ih := ih fun op hop => h op (by simp [hop])
    simp only [List.foldlM_cons, Option.bind_eq_bind, Option.bind_eq_some_iff] at hs
    obtain ⟨s1, h1, h2⟩ := hs
    rcases h op (by simp) with ⟨k, xs, rfl⟩ | ⟨k, i, xs, rfl⟩
    · simp only [LpcOp.apply, PolysEvaluator.appendEvalPoints] at h1
      by_cases hk : s.ev.locked.getD k false = true
      · rw [if_pos hk, Option.map_some, Option.some.injEq] at h1
        have hv := hr k hk
        simp only [List.foldlM_cons, LpcOp.apply, PolysEvaluator.appendEvalPoints, if_pos hv.1,
          Option.map_some, Option.bind_eq_bind, Option.bind_some]
        refine ih s1 _ s' ?_ h2
        subst h1
        intro k' hk'
        have := hr k' hk'
        refine ⟨this.1, ?_⟩
        show List.length (OMap.getD _ _ _) = List.length (OMap.getD _ _ _)
        rw [OMap.getD_insert, OMap.getD_insert]
        split_ifs with he
        · simp [hv.2]
        · exact this.2
      · rw [if_neg hk] at h1; simp at h1
    · simp only [LpcOp.apply, PolysEvaluator.appendEvalPointsTo] at h1
      by_cases hk : s.ev.locked.getD k false = true
      · rw [if_pos hk] at h1
        have hv := hr k hk
        cases hi : (s.ev.points.getD k [])[i]? with
        | none => rw [hi] at h1; simp at h1
        | some l =>
          rw [hi] at h1
          simp only [Option.map_some, Option.some.injEq] at h1
          have hlt : i < (v.ev.points.getD k []).length := by
            rw [hv.2]; exact (List.getElem?_eq_some_iff.1 hi).1
          simp only [List.foldlM_cons, LpcOp.apply, PolysEvaluator.appendEvalPointsTo, if_pos hv.1,
            List.getElem?_eq_getElem hlt, Option.map_some, Option.bind_eq_bind, Option.bind_some]
          refine ih s1 _ s' ?_ h2
          subst h1
          intro k' hk'
          have := hr k' hk'
          refine ⟨this.1, ?_⟩
          show List.length (OMap.getD _ _ _) = List.length (OMap.getD _ _ _)
          rw [OMap.getD_insert, OMap.getD_insert]
          split_ifs with he
          · simp [hv.2]
          · exact this.2
      · rw [if_neg hk] at h1; simp at h1

theorem lpcAppended_append (k : Nat) (h h' : List (LpcOp F)) :
    lpcAppended k (h ++ h') = lpcAppended k h ++ lpcAppended k h' := by
  simp [lpcAppended]

theorem lpcRequested_append (k i : Nat) (h h' : List (LpcOp F)) :
    lpcRequested k i (h ++ h') = lpcRequested k i h ++ lpcRequested k i h' := by
  simp [lpcRequested]

theorem lpcAppended_none (k : Nat) (h : List (LpcOp F)) (hn : ∀ fs, LpcOp.append k fs ∉ h) :
    lpcAppended k h = [] := by
  unfold lpcAppended
  rw [List.flatMap_eq_nil_iff]
  intro op hop
  cases op with
  | append k' fs =>
    by_cases hk : k' = k
    · subst hk; exact absurd hop (hn fs)
    · simp [hk]
  | _ => rfl

theorem lpcRequested_none (k i : Nat) (h : List (LpcOp F)) (hn : ∀ xs, LpcOp.points k xs ∉ h)
    (hn' : ∀ xs, LpcOp.pointsTo k i xs ∉ h) : lpcRequested k i h = [] := by
  unfold lpcRequested
  rw [List.flatMap_eq_nil_iff]
  intro op hop
  cases op with
  | points k' xs =>
    by_cases hk : k' = k
    · subst hk; exact absurd hop (hn xs)
    · simp [hk]
  | pointsTo k' i' xs =>
    by_cases hk : k' = k ∧ i' = i
    · obtain ⟨rfl, rfl⟩ := hk; exact absurd hop (hn' xs)
    · simp [hk]
  | _ => rfl

section session

variable {Has : FriPoly F → List F → Prop} {maxLen : Nat} {okPoints : List F → Prop}
  {pre hp szs pts : List (LpcOp F)} {P : Nat → List (List F)}

theorem SchemeSession.noRequests (h : SchemeSession Has maxLen okPoints pre hp szs pts P) (k i : Nat) :
    lpcRequested k i pre = [] ∧ lpcRequested k i hp = [] ∧ lpcRequested k i szs = [] := by
  refine ⟨lpcRequested_none _ _ _ (fun xs hx => ?_) (fun xs hx => ?_),
    lpcRequested_none _ _ _ (fun xs hx => ?_) (fun xs hx => ?_),
    lpcRequested_none _ _ _ (fun xs hx => ?_) (fun xs hx => ?_)⟩
  · rcases h.preOps _ hx with ⟨_, _, h⟩ | ⟨_, h⟩ | ⟨_, h⟩ <;> simp at h
  · rcases h.preOps _ hx with ⟨_, _, h⟩ | ⟨_, h⟩ | ⟨_, h⟩ <;> simp at h
  · rcases h.proverOps _ hx with ⟨_, _, h⟩ | ⟨_, h⟩ <;> simp at h
  · rcases h.proverOps _ hx with ⟨_, _, h⟩ | ⟨_, h⟩ <;> simp at h
  · obtain ⟨_, _, h⟩ := h.sizeOps _ hx; simp at h
  · obtain ⟨_, _, h⟩ := h.sizeOps _ hx; simp at h

theorem SchemeSession.requested (h : SchemeSession Has maxLen okPoints pre hp szs pts P) (k i : Nat) :
    lpcRequested k i (pre ++ (hp ++ pts)) = lpcRequested k i pts ∧
    lpcRequested k i (pre ++ (szs ++ pts)) = lpcRequested k i pts := by
  obtain ⟨h1, h2, h3⟩ := h.noRequests k i
  simp only [lpcRequested_append, h1, h2, h3, List.nil_append, and_self]

theorem SchemeSession.appendedPts (h : SchemeSession Has maxLen okPoints pre hp szs pts P) (k : Nat) :
    lpcAppended k pts = [] ∧ lpcAppended k szs = [] := by
  refine ⟨lpcAppended_none _ _ fun fs hx => ?_, lpcAppended_none _ _ fun fs hx => ?_⟩
  · rcases h.pointOps _ hx with ⟨_, _, h⟩ | ⟨_, _, _, h⟩ <;> simp at h
  · obtain ⟨_, _, h⟩ := h.sizeOps _ hx; simp at h

theorem SchemeSession.ptsNoCommit (h : SchemeSession Has maxLen okPoints pre hp szs pts P) (k : Nat) :
    LpcOp.commit k ∉ pts ∧ (∀ m, LpcOp.batchSize k m ∉ pts) ∧ LpcOp.markFixed k ∉ pts ∧
      ∀ fs, LpcOp.append k fs ∉ pts := by
  refine ⟨fun hx => ?_, fun m hx => ?_, fun hx => ?_, fun fs hx => ?_⟩ <;>
  rcases h.pointOps _ hx with ⟨_, _, h⟩ | ⟨_, _, _, h⟩ <;> simp at h

theorem SchemeSession.szsNoCommit (h : SchemeSession Has maxLen okPoints pre hp szs pts P) (k : Nat) :
    LpcOp.commit k ∉ szs ∧ LpcOp.markFixed k ∉ szs ∧ ∀ fs, LpcOp.append k fs ∉ szs := by
  refine ⟨fun hx => ?_, fun hx => ?_, fun fs hx => ?_⟩ <;>
  obtain ⟨_, _, h⟩ := h.sizeOps _ hx <;> simp at h

theorem SchemeSession.noSizes (h : SchemeSession Has maxLen okPoints pre hp szs pts P) (k m : Nat) :
    LpcOp.batchSize k m ∉ pre ∧ LpcOp.batchSize k m ∉ hp ∧ LpcOp.markFixed k ∉ hp := by
  refine ⟨fun hx => ?_, fun hx => ?_, fun hx => ?_⟩
  · rcases h.preOps _ hx with ⟨_, _, h⟩ | ⟨_, h⟩ | ⟨_, h⟩ <;> simp at h
  · rcases h.proverOps _ hx with ⟨_, _, h⟩ | ⟨_, h⟩ <;> simp at h
  · rcases h.proverOps _ hx with ⟨_, _, h⟩ | ⟨_, h⟩ <;> simp at h

end session

theorem lpc_session {prm : FriParams F} {N D : Nat} (hprm : LpcParams L prm A N D)
    {pre hp szs pts : List (LpcOp F)} {P : Nat → List (List F)} {etha : F}
    (h : SchemeSession (fun f c => f.Has L N c) (prm.maxDegree + 1) (OutsideDomain L N) pre hp szs pts P)
    (he : ∀ m, (L.domain N).elem m ≠ etha) :
    LpcSession L prm A N D (pre ++ (hp ++ pts)) (pre ++ (szs ++ pts)) P etha where
  adicity := hprm.adicity
  rounds := hprm.rounds
  domains := hprm.domains
  degree := hprm.degree
  proverSizes k m := by
    have h1 := h.noSizes k m
    have h2 := (h.ptsNoCommit k).2.1 m
    simp [h1.1, h1.2.1, h2]
  allCommitted k fs hx := by
    have h3 := (h.ptsNoCommit k).2.2.2 fs
    have h4 := (h.ptsNoCommit k).1
    have := h.allCommitted k fs (by simpa [h3] using hx)
    simpa [h4] using this
  polys k := by
    have := h.polys k
    rw [← List.append_assoc, lpcAppended_append, (h.appendedPts k).1, List.append_nil]
    exact this
  degrees := h.degrees
  verifierCommits k hk := by
    have hk : LpcOp.commit k ∈ pre := by
      simpa [(h.szsNoCommit k).1, (h.ptsNoCommit k).1] using hk
    obtain ⟨h1, h2, h3⟩ := h.once k hk
    refine ⟨by simp [hk], ?_, fun m => by simp [h.noSizes k m, h3, (h.ptsNoCommit k).2.1 m]⟩
    rw [lpcAppended_append, lpcAppended_append, (h.appendedPts k).1, (h.appendedPts k).2,
      ← (h.polys k).length_eq, lpcAppended_append, lpcAppended_none k hp h2]
    simp
  sizes k m hk := by
    have hk : LpcOp.batchSize k m ∈ szs := by
      simpa [h.noSizes k m, (h.ptsNoCommit k).2.1 m] using hk
    obtain ⟨h1, h2⟩ := h.sizes k m hk
    exact ⟨by simp [h1], h2⟩
  sized k hk := by
    have hk : LpcOp.commit k ∈ pre ∨ LpcOp.commit k ∈ hp := by
      simpa [(h.ptsNoCommit k).1] using hk
    rcases hk with hk | hk
    · exact Or.inl (by simp [hk])
    · obtain ⟨m, hm⟩ := h.sized k hk
      exact Or.inr ⟨m, by simp [hm]⟩
  samePoints k i := by rw [(h.requested k i).1, (h.requested k i).2]
  sameFixed k := by
    simp [(h.noSizes k 0).2.2, (h.ptsNoCommit k).2.2.1, (h.szsNoCommit k).2.1]
  outside k i hk hi x hx m := by
    rw [(h.requested k i).1] at hx
    exact h.points k i (by simpa [(h.ptsNoCommit k).1] using hk) hi x hx m
  ethaOutside k _ := he

theorem container_points_follow {Has : FriPoly F → List F → Prop}
    {maxLen : Nat} {okPoints : List F → Prop} {pre hp szs pts : List (LpcOp F)} {P : Nat → List (List F)}
    (h : SchemeSession Has maxLen okPoints pre hp szs pts P) (s v : PolysEvaluator F)
    (hs : runContainer (lpcContainer L (pre ++ hp)) = some s)
    (hv : runContainer (lpcContainer L (pre ++ szs)) = some v) : PointsFollow s v := by
  have cs := container_run _ s hs
  have cv := container_run _ v hv
  have hlen : ∀ k, (lpcAppended k (pre ++ hp)).length = (P k).length := fun k => (h.polys k).length_eq
  intro k hk
  have hk := (cs.locked k).1 hk
  have hc : LpcOp.commit k ∈ pre ++ hp := by
    rcases hk with hk | ⟨m, hm⟩
    · exact (committed_container L k _).1 hk
    · have := (batchSize_container L k m _).1 hm
      simp [h.noSizes k m] at this
  have hsp := cs.points k (fun m hm => by
    have := (batchSize_container L k m _).1 hm
    simp [h.noSizes k m] at this) ((committed_container L k _).2 hc)
  have hsl : (s.points.getD k []).length = (P k).length := by
    rw [OMap.getD, hsp, Option.getD_some, List.length_map, List.length_range, appended_container,
      List.length_map, hlen]
  rw [hsl]
  rcases List.mem_append.1 hc with hc | hc
  · refine ⟨(cv.locked k).2 (Or.inl ((committed_container L k _).2 (by simp [hc]))), ?_⟩
    obtain ⟨h1, h2, h3⟩ := h.once k hc
    have := cv.points k (fun m hm => by
      have := (batchSize_container L k m _).1 hm
      simp [h.noSizes k m, h3] at this) ((committed_container L k _).2 (by simp [hc]))
    rw [OMap.getD, this, Option.getD_some, List.length_map, List.length_range, appended_container,
      List.length_map, ← hlen, lpcAppended_append, lpcAppended_append, (h.appendedPts k).2,
      lpcAppended_none k hp h2]
  · obtain ⟨m, hm⟩ := h.sized k hc
    have hm' := (batchSize_container L k m (pre ++ szs)).2 (by simp [hm])
    refine ⟨(cv.locked k).2 (Or.inr ⟨m, hm'⟩), ?_⟩
    have hnp : LpcOp.commit k ∉ pre := fun hp => (h.once k hp).1 hc
    have := cv.sized k m (fun hx => by
      have := (committed_container L k _).1 hx
      simp [hnp, (h.szsNoCommit k).1] at this) hm' (fun m' hm'' => by
        have := (batchSize_container L k m' _).1 hm''
        have : LpcOp.batchSize k m' ∈ szs := by simpa [h.noSizes k m'] using this
        rw [(h.sizes k m' this).2, (h.sizes k m hm).2])
    rw [OMap.getD, this, Option.getD_some, List.length_map, List.length_range, (h.sizes k m hm).2]

theorem lpc_points_follow {prm : FriParams F} (M : MerkleLib F Tree Root Path) {Has : FriPoly F → List F → Prop}
    {maxLen : Nat} {okPoints : List F → Prop} {pre hp szs pts : List (LpcOp F)} {P : Nat → List (List F)}
    (h : SchemeSession Has maxLen okPoints pre hp szs pts P) (s v : LpcScheme F Tree)
    (hs : runLpc L M prm (pre ++ hp) = some s) (hv : runLpc L M prm (pre ++ szs) = some v) :
    PointsFollow s.ev v.ev :=
  container_points_follow h s.ev v.ev (lpc_run L M prm _ s hs).run (lpc_run L M prm _ v hv).run

theorem OMap.ext_sorted {V : Type} {m m' : OMap V} (h : m.Sorted) (h' : m'.Sorted)
    (he : ∀ k, m.find k = m'.find k) : m = m' := by
  induction m generalizing m' with
  | nil =>
    cases m' with
    | nil => rfl
    | cons e m' => have := he e.1; simp [OMap.find] at this
  | cons e m ih =>
    obtain ⟨k, v⟩ := e
    cases m' with
    | nil => have := he k; simp [OMap.find] at this
    | cons e' m' =>
      obtain ⟨k', v'⟩ := e'
      have hk : k = k' := by
        have h1 : k ∈ OMap.keys ((k', v') :: m') := by
          rw [← OMap.find_isSome_iff, ← he k]; simp [OMap.find]
        have h2 : k' ∈ OMap.keys ((k, v) :: m) := by
          rw [← OMap.find_isSome_iff, he k']; simp [OMap.find]
        simp only [OMap.keys, List.map_cons, List.mem_cons] at h1 h2
        have s1 : (∀ b ∈ OMap.keys m, k < b) ∧ OMap.Sorted m := by
          simpa [OMap.Sorted, OMap.keys] using h
        have s2 : (∀ b ∈ OMap.keys m', k' < b) ∧ OMap.Sorted m' := by
          simpa [OMap.Sorted, OMap.keys] using h'
        rcases h1 with h1 | h1
        · exact h1
        · rcases h2 with h2 | h2
          · exact h2.symm
          · have := s1.1 _ h2; have := s2.1 _ h1; omega
      subst hk
      have hv : v = v' := by have := he k; simpa [OMap.find] using this
      subst hv
      congr 1
      refine ih h.cons.2 h'.cons.2 fun j => ?_
      by_cases hj : k = j
      · subst hj; rw [h.cons.1, h'.cons.1]
      · have := he j; simpa [OMap.find, hj] using this

theorem lpc_root_withData (M : MerkleLib F Tree Root Path) (T : FriTranscript S F Root) (prm : FriParams F)
    (dfs : Bool) (fuel nonce : Nat) (s : LpcScheme F Tree) (e : F) (data : OMap (List F)) (k : Nat) :
    (lpcComm L M T prm dfs fuel nonce).root (s.withData e data) k = (s.trees.find k).map M.root := rfl

/-- LPC is a complete commitment scheme, for points outside of the first domain of FRI. -/
theorem lpcComm_complete (hL : L.Lawful A) (M : MerkleLib F Tree Root Path) (hM : M.Lawful)
    (T : FriTranscript S F Root) {prm : FriParams F} {N D : Nat} (hprm : LpcParams L prm A N D)
    (dfs : Bool) (fuel nonce : Nat) :
    (lpcComm L M T prm dfs fuel nonce).Complete (fun f c => f.Has L N c) (prm.maxDegree + 1)
      (OutsideDomain L N) (fun st => ∀ m, (L.domain N).elem m ≠ (T.challenge st).2) := by
  intro pre hp szs pts P sess o0 o st0 st st' data proof hpre hdata hok hrun hproof
  set etha := (T.challenge st0).2 with hetha
  have hset : ((lpcComm L M T prm dfs fuel nonce).setup o0 st0 data).2 = o0.withData etha data := rfl
  have hrun0 : ∀ ops, (lpcComm L M T prm dfs fuel nonce).run (o0.withData etha data) ops =
      (runLpc L M prm (pre ++ ops)).map (·.withData etha data) := by
    intro ops
    show ops.foldlM (LpcOp.apply L M prm) _ = _
    rw [lpc_run_withData]
    have hpre' : pre.foldlM (LpcOp.apply L M prm) LpcScheme.new = some o0 := hpre
    rw [runLpc, List.foldlM_append, hpre']
    rfl
  rw [hset, hrun0] at hrun
  obtain ⟨sp, hsp, rfl⟩ := Option.map_eq_some_iff.1 hrun
  -- the verifier's object
  have hs1 : ∃ s, runLpc L M prm (pre ++ hp) = some s ∧ pts.foldlM (LpcOp.apply L M prm) s = some sp := by
    rw [← List.append_assoc, runLpc, List.foldlM_append] at hsp
    exact Option.bind_eq_some_iff.1 hsp
  obtain ⟨s, hs, hspts⟩ := hs1
  have hv1 : ∃ v, runLpc L M prm (pre ++ szs) = some v := by
    obtain ⟨v, hv⟩ := lpc_size_run (L := L) M prm szs sess.sizeOps o0
    refine ⟨v, ?_⟩
    have hpre' : pre.foldlM (LpcOp.apply L M prm) LpcScheme.new = some o0 := hpre
    rw [runLpc, List.foldlM_append, hpre']
    exact hv
  obtain ⟨v0, hv0⟩ := hv1
  obtain ⟨v, hv⟩ := points_follow (L := L) M prm pts sess.pointOps s v0 sp
    (lpc_points_follow M sess s v0 hs hv0) hspts
  have hvrun : runLpc L M prm (pre ++ (szs ++ pts)) = some v := by
    rw [← List.append_assoc, runLpc, List.foldlM_append]
    exact Option.bind_eq_some_iff.2 ⟨v0, hv0, hv⟩
  have lsess := lpc_session hprm sess hok
  have hd : ∀ k, LpcOp.markFixed k ∈ pre ++ (hp ++ pts) → LpcOp.commit k ∈ pre ++ (hp ++ pts) →
      data.find k = some ((P k).map fun c => evalPoly c etha) := by
    intro k hk _
    have hk : LpcOp.markFixed k ∈ pre := by
      simpa [(sess.noSizes k 0).2.2, (sess.ptsNoCommit k).2.2.1] using hk
    obtain ⟨⟨st1, data'⟩, hp1, rfl⟩ := Option.map_eq_some_iff.1 hdata
    refine (C44_preprocess hL M T prm N hprm.adicity pre o0 o0 hpre st0 st1 _ hp1).2.2 k (P k) hk ?_
    have := sess.polys k
    rwa [lpcAppended_append, lpcAppended_none k hp (sess.once k (sess.fixedCommitted k hk)).2.1,
      List.append_nil] at this
  refine ⟨?_, ?_⟩
  · intro k hk
    have hk' : LpcOp.commit k ∈ pre ++ (hp ++ pts) := by
      rw [← List.append_assoc]; exact List.mem_append_left _ hk
    obtain ⟨ev', keys, w⟩ := lpc_session_view M prm N D _ _ P etha lsess sp v hsp hvrun
    have hz : proof.1 = ev'.z := by
      have h := hproof
      change LpcScheme.proofEval L M T prm dfs fuel nonce (sp.withData etha data) st = _ at h
      unfold LpcScheme.proofEval LpcScheme.withData at h
      simp only [w.evaluated, Option.bind_eq_bind, Option.bind_some] at h
      split_ifs at h with hlen
      · simp only [Option.bind_eq_some_iff] at h
        obtain ⟨_, _, _, _, _, _, _, _, _, _, h⟩ := h
        simp only [Option.some.injEq, Prod.mk.injEq] at h
        rw [← h.1]
    rw [hz, w.prover.z, find_map_keys keys (fun k => (List.range (P k).length).map fun i =>
      (lpcRequested k i (pre ++ (hp ++ pts))).map (evalPoly (lpcCoeffs L (pre ++ (hp ++ pts)) k i))) k
      ((w.keysMem k).2 hk')]
    congr 1
    apply List.ext_getElem (by simp)
    intro i hi hi'
    have hi : i < (P k).length := by simpa using hi
    simp only [List.getElem_map, List.getElem_range, List.getElem_mapIdx, (sess.requested k i).1]
    apply List.map_congr_left
    intro x _
    exact (lpcCoeffs_eval hL N hprm.adicity _ P k (lsess.polys k) i hi).1 x
  · refine ⟨v.withData etha data, by rw [hset, hrun0, hvrun]; rfl, ?_⟩
    intro coms hsorted hcoms
    have inv := lpc_run L M prm _ sp hsp
    have : coms = sp.trees.map fun e => (e.1, M.root e.2) := by
      refine OMap.ext_sorted hsorted ?_ fun k => ?_
      · have := inv.treesSorted
        unfold OMap.Sorted OMap.keys at this ⊢
        rw [List.map_map]
        exact this
      · rw [find_map_value]
        ext com
        have := hcoms k com
        rw [this, lpc_root_withData]
        simp only [and_iff_right_iff_imp]
        intro hcom
        by_contra hno
        rw [inv.absent k (by
          rw [← List.append_assoc, List.mem_append]
          simp only [(sess.ptsNoCommit k).1, or_false]; exact hno)] at hcom
        simp at hcom
    rw [this]
    exact C44_honest_accepted hL M hM T prm N D _ _ P etha lsess sp v hsp hvrun data hd dfs fuel nonce st
      st' proof hproof

theorem lpcComm_rootLaws (M : MerkleLib F Tree Root Path) (T : FriTranscript S F Root) (prm : FriParams F)
    (dfs : Bool) (fuel nonce : Nat) : (lpcComm L M T prm dfs fuel nonce).RootLaws where
  apply o o' op k h hne := by
    show (o'.trees.find k).map M.root = (o.trees.find k).map M.root
    congr 1
    change LpcOp.apply L M prm o op = some o' at h
    cases op with
    | append k' fs =>
      simp only [LpcOp.apply, LpcScheme.append, Option.bind_eq_bind, Option.bind_eq_some_iff,
        Option.some.injEq] at h
      obtain ⟨_, _, rfl⟩ := h; rfl
    | commit k' =>
      simp only [LpcOp.apply, LpcScheme.commit, Option.bind_eq_bind, Option.map_eq_some_iff,
        Option.bind_eq_some_iff, Option.some.injEq] at h
      obtain ⟨_, ⟨_, _, _, _, _, _, rfl⟩, rfl⟩ := h
      have hk : k ≠ k' := fun he => hne (by rw [he])
      simp [OMap.find_insert, hk]
    | points k' xs =>
      simp only [LpcOp.apply, Option.map_eq_some_iff] at h
      obtain ⟨_, _, rfl⟩ := h; rfl
    | pointsTo k' i xs =>
      simp only [LpcOp.apply, Option.map_eq_some_iff] at h
      obtain ⟨_, _, rfl⟩ := h; rfl
    | batchSize k' m =>
      simp only [LpcOp.apply, Option.some.injEq] at h
      subst h; rfl
    | markFixed k' =>
      simp only [LpcOp.apply, Option.some.injEq] at h
      subst h; rfl
  setup o st data k := rfl

end Crypto3Zk
