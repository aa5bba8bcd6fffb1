import Verif.Model.PlaceholderKzg
import Verif.Lemmas.PlaceholderLpcTotal
import Verif.Props.KZGScheme

/-!
# KZG as a commitment scheme of the placeholder proof system
-/

set_option linter.unusedSectionVars false

namespace Crypto3Zk

variable {F : Type} [Field F] [LinearOrder F] {S G1 G2 GT : Type} [AddCommGroup G1] [Module F G1]
  [AddCommGroup G2] [Module F G2] [AddCommGroup GT] [Module F GT] [DecidableEq GT]
variable {L : FftLib F} {A : Nat}

/-- Points that the scheme can open one polynomial at: without repetitions, at most as many as the key has
elements, and all of them from `U`. -/
def KzgPoints (d : Nat) (U : Finset F) (xs : List F) : Prop := xs.Nodup ∧ xs.length ≤ d ∧ ∀ x ∈ xs, x ∈ U

/-- the object after a history of calls -/
def runKzg (L : FftLib F) (ck : List G1) (codec : PointCodec G1) (h : List (LpcOp F)) :
    Option (KzgScheme F) := runScheme ck codec (lpcContainer L h)

theorem kzg_call_eq (ck : List G1) (codec : PointCodec G1) (s : KzgScheme F) (op : LpcOp F) :
    s.call L ck codec op = (op.container L).foldlM (KzgScheme.apply ck codec) s := by
  cases op <;> simp [KzgScheme.call, LpcOp.container]

theorem kzg_foldlM_eq (ck : List G1) (codec : PointCodec G1) (ops : List (LpcOp F)) :
    ∀ s : KzgScheme F, ops.foldlM (KzgScheme.call L ck codec) s =
      (lpcContainer L ops).foldlM (KzgScheme.apply ck codec) s := by
  induction ops with
  | nil => intro s; rfl
  | cons op ops ih =>
    intro s
    show _ = (op.container L ++ lpcContainer L ops).foldlM _ s
    rw [List.foldlM_cons, List.foldlM_append, kzg_call_eq]
    exact bind_congr fun s' => ih s'

theorem runKzg_snoc (ck : List G1) (codec : PointCodec G1) (h : List (LpcOp F)) (op : LpcOp F) :
    runKzg L ck codec (h ++ [op]) = (runKzg L ck codec h).bind fun s => s.call L ck codec op := by
  unfold runKzg runScheme
  rw [lpcContainer_snoc, List.foldlM_append]
  simp only [kzg_call_eq]
  rfl

theorem runKzg_append (ck : List G1) (codec : PointCodec G1) (h h' : List (LpcOp F)) :
    runKzg L ck codec (h ++ h') = (runKzg L ck codec h).bind fun s =>
      h'.foldlM (KzgScheme.call L ck codec) s := by
  unfold runKzg runScheme
  rw [show lpcContainer L (h ++ h') = lpcContainer L h ++ lpcContainer L h' by simp [lpcContainer],
    List.foldlM_append]
  simp only [kzg_foldlM_eq]
  rfl

variable {P : Pairing F G1 G2 GT} {d t : Nat} {alpha : F} {codec : PointCodec G1}

theorem kzg_inv {h : List (LpcOp F)} {s : KzgScheme F}
    (hs : runKzg L (batchedKzgSetup P d t alpha).ck codec h = some s) :
    SchemeInv alpha P.one1 d codec (lpcContainer L h) s :=
  scheme_run alpha P.one1 d codec _ s hs

theorem kzg_append_defined {h : List (LpcOp F)} {s : KzgScheme F}
    (hs : runKzg L (batchedKzgSetup P d t alpha).ck codec h = some s)
    (hb : ∀ k m, LpcOp.batchSize k m ∉ h) (k : Nat) (hc : LpcOp.commit k ∉ h) (fs : List (FriPoly F)) :
    ∃ s', s.call L (batchedKzgSetup P d t alpha).ck codec (.append k fs) = some s' := by
  have inv := kzg_inv hs
  have cinv := container_run _ s.ev inv.run
  have hl : s.ev.locked.getD k false = false := by
    by_contra hne
    rw [Bool.not_eq_false] at hne
    rcases (cinv.locked k).1 hne with hk | ⟨m, hm⟩
    · exact hc ((committed_container L k _).1 hk)
    · exact hb k m ((batchSize_container L k m _).1 hm)
  have : ∃ ev, s.ev.appendToBatch k (fs.map fun f => f.final L) = some ev := by
    unfold PolysEvaluator.appendToBatch
    cases hf : s.ev.locked.find k with
    | none => simp [OMap.getD, OMap.find_insert]
    | some b => simp [hl]
  obtain ⟨ev, hev⟩ := this
  simp [KzgScheme.call, KzgScheme.apply, ContainerOp.apply, hev]

theorem kzg_commit_defined {h : List (LpcOp F)} {s : KzgScheme F}
    (hs : runKzg L (batchedKzgSetup P d t alpha).ck codec h = some s) (k : Nat)
    (hf : ∀ f ∈ lpcAppended k h, (f.final L).length ≤ d) :
    ∃ s', s.call L (batchedKzgSetup P d t alpha).ck codec (.commit k) = some s' := by
  have inv := kzg_inv hs
  have cinv := container_run _ s.ev inv.run
  have hpolys : (s.ev.stateCommitted k).polys.getD k [] = appended k (lpcContainer L h) := by
    simp [PolysEvaluator.stateCommitted, OMap.getD_insert, cinv.polys]
  have hm : (appended k (lpcContainer L h)).mapM (fun f => kzgCommit (batchedKzgSetup P d t alpha).ck f) =
      some ((appended k (lpcContainer L h)).map fun f => evalPoly f alpha • P.one1) := by
    apply mapM_eq_some_map
    intro f hf'
    rw [appended_container, List.mem_map] at hf'
    obtain ⟨g, hg, rfl⟩ := hf'
    exact kzgCommit_powerKey alpha P.one1 d _ (hf g hg)
  simp only [KzgScheme.call, KzgScheme.apply, KzgScheme.commit, hpolys, hm, Option.bind_eq_bind,
    Option.bind_some, Option.map_some]
  exact ⟨_, rfl⟩

theorem kzg_points_defined {h : List (LpcOp F)} {s : KzgScheme F}
    (hs : runKzg L (batchedKzgSetup P d t alpha).ck codec h = some s) (k : Nat)
    (hc : LpcOp.commit k ∈ h) (xs : List F) :
    ∃ s', s.call L (batchedKzgSetup P d t alpha).ck codec (.points k xs) = some s' := by
  have inv := kzg_inv hs
  have cinv := container_run _ s.ev inv.run
  have hl : s.ev.locked.getD k false = true := (cinv.locked k).2 (Or.inl ((committed_container L k _).2 hc))
  simp [KzgScheme.call, KzgScheme.apply, ContainerOp.apply, PolysEvaluator.appendEvalPoints, hl]

theorem kzg_pointsTo_defined {h : List (LpcOp F)} {s : KzgScheme F}
    (hs : runKzg L (batchedKzgSetup P d t alpha).ck codec h = some s)
    (hb : ∀ k m, LpcOp.batchSize k m ∉ h) (k i : Nat)
    (hc : LpcOp.commit k ∈ h) (hi : i < (lpcAppended k h).length) (xs : List F) :
    ∃ s', s.call L (batchedKzgSetup P d t alpha).ck codec (.pointsTo k i xs) = some s' := by
  have inv := kzg_inv hs
  have cinv := container_run _ s.ev inv.run
  have hl : s.ev.locked.getD k false = true := (cinv.locked k).2 (Or.inl ((committed_container L k _).2 hc))
  have hp := cinv.points k (fun m hm => hb k m ((batchSize_container L k m _).1 hm))
    ((committed_container L k _).2 hc)
  have hlen : i < (s.ev.points.getD k []).length := by
    rw [OMap.getD, hp, Option.getD_some, List.length_map, List.length_range, appended_container,
      List.length_map]
    exact hi
  simp [KzgScheme.call, KzgScheme.apply, ContainerOp.apply, PolysEvaluator.appendEvalPointsTo, hl,
    List.getElem?_eq_getElem hlen]

/-- the coefficients of a polynomial in evaluation form fit the key -/
theorem kzg_final_length (hL : L.Lawful A) (hd : 0 < d) (f : FriPoly F) (c : List F) (h : f.Has L A c)
    (hc : c.length ≤ d) : (f.final L).length ≤ d := by
  cases f with
  | coeff c' =>
    obtain ⟨rfl, -⟩ := h
    exact hc
  | dfs w =>
    obtain ⟨m, hm, rfl, hl⟩ := h
    have := (hL.coefficients m hm c hl).2.1
    simp only [FriPoly.final]
    omega

/-- KZG accepts the calls of a prover. -/
theorem kzgComm_total (hL : L.Lawful A) (hd : 0 < d) (T : KzgTranscript S F) :
    (kzgComm L P (batchedKzgSetup P d t alpha) codec T).Total (fun f c => f.Has L A c) d := by
  intro pre hp pts o0 st data hcalls hpre hdata
  replace hpre : runKzg L (batchedKzgSetup P d t alpha).ck codec pre = some o0 := by
    rw [← hpre]
    exact (kzg_foldlM_eq _ _ _ _).symm
  have hnosz : ∀ k m, LpcOp.batchSize k m ∉ pre ++ hp ++ pts := by
    intro k m hm
    rcases List.mem_append.1 hm with hm | hm
    · rcases List.mem_append.1 hm with hm | hm
      · rcases hcalls.preOps _ hm with ⟨_, _, h⟩ | ⟨_, h⟩ | ⟨_, h⟩ <;> cases h
      · rcases hcalls.proverOps _ hm with ⟨_, _, h⟩ | ⟨_, h⟩ <;> cases h
    · rcases hcalls.pointOps _ hm with ⟨_, _, h⟩ | ⟨_, _, _, h⟩ <;> cases h
  have hnocp : ∀ a b : List (LpcOp F), pts = a ++ b → ∀ k, lpcAppended k (pre ++ hp ++ a) =
      lpcAppended k (pre ++ hp) := by
    intro a b hab k
    rw [lpcAppended_append, lpcAppended_none k a, List.append_nil]
    intro fs hfs
    rcases hcalls.pointOps (.append k fs) (by rw [hab]; exact List.mem_append_left _ hfs) with
      ⟨_, _, h⟩ | ⟨_, _, _, h⟩ <;> cases h
  have h1 : ∀ a b : List (LpcOp F), hp = a ++ b →
      ∃ s, runKzg L (batchedKzgSetup P d t alpha).ck codec (pre ++ a) = some s := by
    intro a
    induction a using List.reverseRecOn with
    | nil => intro b _; exact ⟨o0, by rw [List.append_nil]; exact hpre⟩
    | append_singleton a op ih =>
      intro b hab
      obtain ⟨s, hs⟩ := ih (op :: b) (by rw [hab]; simp)
      have hop : op ∈ hp := by rw [hab]; simp
      rw [← List.append_assoc, runKzg_snoc, hs, Option.bind_some]
      have hord := hcalls.order
      rw [hab, show pre ++ (a ++ [op] ++ b) = (pre ++ a) ++ (op :: b) by simp, inOrder_append] at hord
      have hord := hord.2
      rcases hcalls.proverOps op hop with ⟨k, fs, rfl⟩ | ⟨k, rfl⟩
      · refine kzg_append_defined hs (fun k m hm => hnosz k m ?_) k ?_ fs
        · rw [hab]
          simp only [List.mem_append] at hm ⊢
          tauto
        · have := hord.1
          rw [mem_committedBy] at this
          tauto
      · refine kzg_commit_defined hs k fun f hf => ?_
        obtain ⟨c, hc, hl⟩ := hcalls.polys k hop f (by
          rw [hab, show pre ++ (a ++ [LpcOp.commit k] ++ b) = (pre ++ a) ++ (LpcOp.commit k :: b) by simp,
            lpcAppended_append]
          exact List.mem_append_left _ hf)
        exact kzg_final_length hL hd f c hc hl
  have h2 : ∀ a b : List (LpcOp F), pts = a ++ b →
      ∃ s, runKzg L (batchedKzgSetup P d t alpha).ck codec (pre ++ hp ++ a) = some s := by
    intro a
    induction a using List.reverseRecOn with
    | nil => intro b _; rw [List.append_nil]; exact h1 hp [] (by simp)
    | append_singleton a op ih =>
      intro b hab
      obtain ⟨s, hs⟩ := ih (op :: b) (by rw [hab]; simp)
      have hop : op ∈ pts := by rw [hab]; simp
      rw [← List.append_assoc, runKzg_snoc, hs, Option.bind_some]
      rcases hcalls.pointOps op hop with ⟨k, xs, rfl⟩ | ⟨k, i, xs, rfl⟩
      · exact kzg_points_defined hs k (List.mem_append_left _ (hcalls.points k xs hop)) xs
      · obtain ⟨hc, hi⟩ := hcalls.pointsTo k i xs hop
        refine kzg_pointsTo_defined hs (fun k m hm => hnosz k m ?_) k i (List.mem_append_left _ hc) ?_ xs
        · rw [hab]
          simp only [List.mem_append] at hm ⊢
          tauto
        · rw [hnocp a _ (by rw [hab, List.append_assoc])]
          exact hi
  obtain ⟨s, hs⟩ := h2 pts [] (by simp)
  refine ⟨s, ?_, ?_⟩
  · show (hp ++ pts).foldlM (KzgScheme.call L _ codec) o0 = _
    rw [List.append_assoc, runKzg_append, hpre, Option.bind_some] at hs
    exact hs
  · intro k hk
    exact ⟨_, (kzg_inv hs).found k ((committed_container L k _).2 (by simp [hk]))⟩

/-- KZG accepts the calls of a preprocessor. -/
theorem kzgComm_totalSetup (hL : L.Lawful A) (hd : 0 < d) (T : KzgTranscript S F) :
    (kzgComm L P (batchedKzgSetup P d t alpha) codec T).TotalSetup (fun f c => f.Has L A c) d := by
  intro pre hops hord hpolys hfix
  have hnosz : ∀ k m, LpcOp.batchSize k m ∉ pre := by
    intro k m hm
    rcases hops _ hm with ⟨_, _, h⟩ | ⟨_, h⟩ | ⟨_, h⟩ <;> cases h
  have h1 : ∀ a b : List (LpcOp F), pre = a ++ b →
      ∃ s, runKzg L (batchedKzgSetup P d t alpha).ck codec a = some s := by
    intro a
    induction a using List.reverseRecOn with
    | nil => intro b _; exact ⟨_, rfl⟩
    | append_singleton a op ih =>
      intro b hab
      obtain ⟨s, hs⟩ := ih (op :: b) (by rw [hab]; simp)
      have hop : op ∈ pre := by rw [hab]; simp
      rw [runKzg_snoc, hs, Option.bind_some]
      rw [hab, show a ++ [op] ++ b = a ++ (op :: b) by simp, inOrder_append] at hord
      have hord := hord.2
      rcases hops op hop with ⟨k, fs, rfl⟩ | ⟨k, rfl⟩ | ⟨k, rfl⟩
      · refine kzg_append_defined hs (fun k m hm => hnosz k m ?_) k ?_ fs
        · rw [hab]
          simp only [List.mem_append] at hm ⊢
          tauto
        · have := hord.1
          rw [mem_committedBy] at this
          tauto
      · refine kzg_commit_defined hs k fun f hf => ?_
        obtain ⟨c, hc, hl⟩ := hpolys k hop f (by
          rw [hab, show a ++ [LpcOp.commit k] ++ b = a ++ (LpcOp.commit k :: b) by simp,
            lpcAppended_append]
          exact List.mem_append_left _ hf)
        exact kzg_final_length hL hd f c hc hl
      · exact ⟨_, rfl⟩
  obtain ⟨s, hs⟩ := h1 pre [] (by simp)
  refine ⟨s, ?_, ?_, fun st => ⟨true, rfl⟩⟩
  · rw [← hs]
    exact kzg_foldlM_eq _ _ _ _
  · intro k hk
    exact ⟨_, (kzg_inv hs).found k ((committed_container L k _).2 hk)⟩

theorem kzgComm_rootLaws (T : KzgTranscript S F) (pp : BatchedKzgParams G1 G2) :
    (kzgComm L P pp codec T).RootLaws where
  apply o o' op k h hne := by
    show o'.commitments.find k = o.commitments.find k
    change o.call L pp.ck codec op = some o' at h
    cases op with
    | commit k' =>
      simp only [KzgScheme.call, KzgScheme.apply, KzgScheme.commit, Option.bind_eq_bind,
        Option.map_eq_some_iff, Option.bind_eq_some_iff, Option.some.injEq] at h
      obtain ⟨_, ⟨_, _, rfl⟩, rfl⟩ := h
      have hk : k ≠ k' := fun he => hne (by rw [he])
      simp [OMap.find_insert, hk]
    | markFixed k' =>
      simp only [KzgScheme.call, Option.some.injEq] at h
      rw [h]
    | _ =>
      simp only [KzgScheme.call, KzgScheme.apply, Option.bind_eq_bind, Option.bind_eq_some_iff,
        Option.some.injEq] at h
      obtain ⟨_, _, rfl⟩ := h
      rfl
  setup o st data k := rfl

/-- the sessions of the proof system are sessions of the scheme -/
theorem kzg_session {U : Finset F} (hU : U.card ≤ t) (hd : 0 < d)
    {pre hp szs pts : List (LpcOp F)} {Q : Nat → List (List F)}
    (h : SchemeSession (fun f c => f.Has L A c) d (KzgPoints d U) pre hp szs pts Q) :
    Session d t (lpcContainer L (pre ++ (hp ++ pts))) (lpcContainer L (pre ++ (szs ++ pts))) := by
  have hcp : ∀ k, committed k (lpcContainer L (pre ++ (hp ++ pts))) ↔ LpcOp.commit k ∈ pre ++ hp := by
    intro k
    rw [committed_container, ← List.append_assoc, List.mem_append]
    simp [(h.ptsNoCommit k).1]
  have hcv : ∀ k, committed k (lpcContainer L (pre ++ (szs ++ pts))) ↔ LpcOp.commit k ∈ pre := by
    intro k
    rw [committed_container]
    simp [(h.ptsNoCommit k).1, (h.szsNoCommit k).1]
  have hlen : ∀ k, (appended k (lpcContainer L (pre ++ (hp ++ pts)))).length = (Q k).length := by
    intro k
    rw [appended_container, List.length_map, ← (h.polys k).length_eq, ← List.append_assoc,
      lpcAppended_append k (pre ++ hp), (h.appendedPts k).1, List.append_nil]
  have hsz : ∀ k m, ContainerOp.batchSize k m ∈ lpcContainer L (pre ++ (szs ++ pts)) ↔
      LpcOp.batchSize k m ∈ szs := by
    intro k m
    rw [batchSize_container]
    simp [h.noSizes k m, (h.ptsNoCommit k).2.1 m]
  have hok : ∀ k i, committed k (lpcContainer L (pre ++ (hp ++ pts))) →
      i < (appended k (lpcContainer L (pre ++ (hp ++ pts)))).length →
      KzgPoints d U (requested k i (lpcContainer L (pre ++ (hp ++ pts)))) := by
    intro k i hk hi
    rw [requested_container, (h.requested k i).1]
    exact h.points k i ((hcp k).1 hk) (by rwa [← hlen])
  refine ⟨?_, ?_, ?_, ?_, ?_, ?_, fun k i hk hi => (hok k i hk hi).1,
    fun k i hk hi => (hok k i hk hi).2.1, ?_, hd⟩
  · intro k m hm
    rw [batchSize_container] at hm
    simp [h.noSizes k m, (h.ptsNoCommit k).2.1 m] at hm
  · intro k fs hfs
    obtain ⟨gs, hgs⟩ := append_container L k fs _ hfs
    rw [hcp]
    refine h.allCommitted k gs ?_
    simpa [(h.ptsNoCommit k).2.2.2 gs] using hgs
  · intro k hk
    rw [hcv] at hk
    obtain ⟨h1, h2, h3⟩ := h.once k hk
    refine ⟨(hcp k).2 (by simp [hk]), ?_, fun m hm => h3 m ((hsz k m).1 hm)⟩
    rw [hlen, appended_container, List.length_map, lpcAppended_append, lpcAppended_append,
      (h.appendedPts k).1, (h.appendedPts k).2, ← (h.polys k).length_eq, lpcAppended_append,
      lpcAppended_none k hp h2]
    simp
  · intro k m hm
    obtain ⟨h1, h2⟩ := h.sizes k m ((hsz k m).1 hm)
    exact ⟨(hcp k).2 (by simp [h1]), by rw [hlen, h2]⟩
  · intro k hk
    rw [hcp, List.mem_append] at hk
    rcases hk with hk | hk
    · exact .inl ((hcv k).2 hk)
    · obtain ⟨m, hm⟩ := h.sized k hk
      exact .inr ⟨m, (hsz k m).2 hm⟩
  · intro k i
    rw [requested_container, requested_container, (h.requested k i).1, (h.requested k i).2]
  · intro l hl hx
    rw [← List.toFinset_card_of_nodup hl]
    refine (Finset.card_le_card fun x hxl => ?_).trans hU
    obtain ⟨k, i, hk, hi, hxr⟩ := hx x (List.mem_toFinset.1 hxl)
    exact (hok k i hk hi).2.2 x hxr

theorem kzg_foldlM_noCommit (ck : List G1) (codec : PointCodec G1) (ops : List (ContainerOp F))
    (hn : ∀ k, ContainerOp.commit k ∉ ops) : ∀ s : KzgScheme F,
    ops.foldlM (KzgScheme.apply ck codec) s =
      (ops.foldlM ContainerOp.apply s.ev).map fun ev => ⟨ev, s.commitments, s.merged⟩ := by
  induction ops with
  | nil => intro s; rfl
  | cons op ops ih =>
    intro s
    have ih := ih fun k hk => hn k (List.mem_cons_of_mem _ hk)
    have h1 : s.apply ck codec op = (op.apply s.ev).bind fun ev =>
        some ⟨ev, s.commitments, s.merged⟩ := by
      cases op with
      | commit k => exact absurd List.mem_cons_self (hn k)
      | _ => rfl
    rw [List.foldlM_cons, List.foldlM_cons, h1]
    cases op.apply s.ev with
    | none => rfl
    | some ev =>
      simp only [Option.bind_eq_bind, Option.bind_some]
      rw [ih]

theorem container_follow (ops : List (LpcOp F))
    (h : ∀ op ∈ ops, (∃ k xs, op = .points k xs) ∨ ∃ k i xs, op = .pointsTo k i xs) :
    ∀ s v s' : PolysEvaluator F, PointsFollow s v →
    (lpcContainer L ops).foldlM ContainerOp.apply s = some s' →
    ∃ v', (lpcContainer L ops).foldlM ContainerOp.apply v = some v' := by
  induction ops with
  | nil => intro s v s' _ _; exact ⟨v, rfl⟩
  | cons op ops ih =>
    intro s v s' hr hs
    have ih := ih fun op hop => h op (by simp [hop])
    rcases h op (by simp) with ⟨k, xs, rfl⟩ | ⟨k, i, xs, rfl⟩
    · change (ContainerOp.points k xs :: lpcContainer L ops).foldlM _ s = _ at hs
      change ∃ v', (ContainerOp.points k xs :: lpcContainer L ops).foldlM _ v = _
      simp only [List.foldlM_cons, Option.bind_eq_bind, Option.bind_eq_some_iff] at hs
      obtain ⟨s1, h1, h2⟩ := hs
      simp only [ContainerOp.apply, PolysEvaluator.appendEvalPoints] at h1
      by_cases hk : s.locked.getD k false = true
      · rw [if_pos hk, Option.some.injEq] at h1
        have hv := hr k hk
        simp only [List.foldlM_cons, ContainerOp.apply, PolysEvaluator.appendEvalPoints, if_pos hv.1,
          Option.bind_eq_bind, Option.bind_some]
        refine ih s1 _ s' ?_ h2
        subst h1
        intro k' hk'
        have := hr k' hk'
        refine ⟨this.1, ?_⟩
        show List.length (OMap.getD _ _ _) = List.length (OMap.getD _ _ _)
        rw [OMap.getD_insert, OMap.getD_insert]
        split_ifs with he
        · simp [hv.2]
        · exact this.2
      · rw [if_neg hk] at h1; simp at h1
    · change (ContainerOp.pointsTo k i xs :: lpcContainer L ops).foldlM _ s = _ at hs
      change ∃ v', (ContainerOp.pointsTo k i xs :: lpcContainer L ops).foldlM _ v = _
      simp only [List.foldlM_cons, Option.bind_eq_bind, Option.bind_eq_some_iff] at hs
      obtain ⟨s1, h1, h2⟩ := hs
      simp only [ContainerOp.apply, PolysEvaluator.appendEvalPointsTo] at h1
      by_cases hk : s.locked.getD k false = true
      · rw [if_pos hk] at h1
        have hv := hr k hk
        cases hi : (s.points.getD k [])[i]? with
        | none => rw [hi] at h1; simp at h1
        | some l =>
          rw [hi] at h1
          simp only [Option.some.injEq] at h1
          have hlt : i < (v.points.getD k []).length := by
            rw [hv.2]; exact (List.getElem?_eq_some_iff.1 hi).1
          simp only [List.foldlM_cons, ContainerOp.apply, PolysEvaluator.appendEvalPointsTo, if_pos hv.1,
            List.getElem?_eq_getElem hlt, Option.bind_eq_bind, Option.bind_some]
          refine ih s1 _ s' ?_ h2
          subst h1
          intro k' hk'
          have := hr k' hk'
          refine ⟨this.1, ?_⟩
          show List.length (OMap.getD _ _ _) = List.length (OMap.getD _ _ _)
          rw [OMap.getD_insert, OMap.getD_insert]
          split_ifs with he
          · simp [hv.2]
          · exact this.2
      · rw [if_neg hk] at h1; simp at h1

theorem kzg_size_run (ck : List G1) (codec : PointCodec G1) (ops : List (LpcOp F))
    (h : ∀ op ∈ ops, ∃ k m, op = .batchSize k m) : ∀ s : KzgScheme F,
    ∃ s', ops.foldlM (KzgScheme.call L ck codec) s = some s' := by
  induction ops with
  | nil => intro s; exact ⟨s, rfl⟩
  | cons op ops ih =>
    intro s
    obtain ⟨k, m, rfl⟩ := h op (by simp)
    simp only [List.foldlM_cons, KzgScheme.call, KzgScheme.apply, ContainerOp.apply, Option.bind_eq_bind,
      Option.bind_some]
    exact ih (fun op hop => h op (by simp [hop])) _

/-- a session: the prover gets a proof with the values of the polynomials, and the verifier accepts it -/
theorem kzg_session_proof (hL : L.Lawful A) (hcodec : codec.Lawful) (T : KzgTranscript S F) {U : Finset F}
    (hU : U.card ≤ t) (hd : 0 < d) {pre hp szs pts : List (LpcOp F)} {Q : Nat → List (List F)}
    (sess : SchemeSession (fun f c => f.Has L A c) d (KzgPoints d U) pre hp szs pts Q)
    (o0 sp : KzgScheme F) (st : S)
    (hpre : runKzg L (batchedKzgSetup P d t alpha).ck codec pre = some o0)
    (hsp : runKzg L (batchedKzgSetup P d t alpha).ck codec (pre ++ (hp ++ pts)) = some sp) :
    ∃ proof st', sp.proofEvalOn (batchedKzgSetup P d t alpha).ck T st = some (proof, st') ∧
      (∀ k, LpcOp.commit k ∈ pre ++ hp → proof.1.find k =
        some ((Q k).mapIdx fun i c => (lpcRequested k i pts).map (evalPoly c))) ∧
      ∃ v, runKzg L (batchedKzgSetup P d t alpha).ck codec (pre ++ (szs ++ pts)) = some v ∧
        v.verifyEvalOn P (batchedKzgSetup P d t alpha) codec T proof sp.commitments st = some (true, st') := by
  -- the verifier's object
  obtain ⟨s, hs, hspts⟩ : ∃ s, runKzg L (batchedKzgSetup P d t alpha).ck codec (pre ++ hp) = some s ∧
      pts.foldlM (KzgScheme.call L (batchedKzgSetup P d t alpha).ck codec) s = some sp := by
    rw [← List.append_assoc, runKzg_append] at hsp
    exact Option.bind_eq_some_iff.1 hsp
  obtain ⟨v0, hv0⟩ : ∃ v, runKzg L (batchedKzgSetup P d t alpha).ck codec (pre ++ szs) = some v := by
    obtain ⟨v, hv⟩ := kzg_size_run (L := L) (batchedKzgSetup P d t alpha).ck codec szs sess.sizeOps o0
    exact ⟨v, by rw [runKzg_append, hpre]; exact hv⟩
  have hfollow := container_points_follow sess s.ev v0.ev (kzg_inv hs).run (kzg_inv hv0).run
  have hnc : ∀ k, ContainerOp.commit k ∉ lpcContainer L pts := by
    intro k hk
    exact (sess.ptsNoCommit k).1 ((committed_container L k _).1 hk)
  rw [kzg_foldlM_eq, kzg_foldlM_noCommit _ _ _ hnc, Option.map_eq_some_iff] at hspts
  obtain ⟨sev, hsev, -⟩ := hspts
  obtain ⟨vev, hvev⟩ := container_follow pts sess.pointOps s.ev v0.ev sev hfollow hsev
  have hvrun : runKzg L (batchedKzgSetup P d t alpha).ck codec (pre ++ (szs ++ pts)) =
      some ⟨vev, v0.commitments, v0.merged⟩ := by
    rw [← List.append_assoc, runKzg_append, hv0, Option.bind_some, kzg_foldlM_eq,
      kzg_foldlM_noCommit _ _ _ hnc, hvev]
    rfl
  have ksess := kzg_session hU hd sess
  have hev : runContainer (lpcContainer L (pre ++ (szs ++ pts))) = some vev := (kzg_inv hvrun).run
  obtain ⟨proof, hp1, hp2⟩ := C40_scheme_complete P d t alpha codec hcodec (fun ms => (T.draw st ms).1) _ _
    ksess sp hsp vev hev v0.commitments v0.merged
  obtain ⟨ev', keys, w⟩ := session_view P alpha d t codec _ _ ksess sp hsp vev hev
  have hz : proof.1 = ev'.z := by
    have h := hp1
    simp only [KzgScheme.proofEval, w.evaluated, Option.bind_eq_bind, Option.bind_some,
      Option.bind_eq_some_iff] at h
    obtain ⟨_, _, _, _, _, _, h⟩ := h
    simp only [Option.some.injEq] at h
    rw [← h]
  refine ⟨proof, (T.draw st (viewMsgs keys
      (fun k => (appended k (lpcContainer L (pre ++ (hp ++ pts)))).length)
      (fun k i => (appended k (lpcContainer L (pre ++ (hp ++ pts)))).getD i [])
      (fun k i => requested k i (lpcContainer L (pre ++ (hp ++ pts)))) sp.commitments)).2, ?_, ?_, _, hvrun, ?_⟩
  · simp only [KzgScheme.proofEvalOn, w.evaluated, Option.bind_eq_bind, Option.bind_some,
      w.prover.transcript sp.commitments w.cmKeys, hp1]
  · intro k hk
    have hk' : k ∈ keys := (w.keysMem k).2 ((committed_container L k _).2 (by
      rw [← List.append_assoc]; exact List.mem_append_left _ hk))
    have hpolys : List.Forall₂ (fun f c => f.Has L A c) (lpcAppended k (pre ++ (hp ++ pts))) (Q k) := by
      rw [← List.append_assoc, lpcAppended_append k (pre ++ hp), (sess.appendedPts k).1, List.append_nil]
      exact sess.polys k
    rw [hz, w.prover.z k hk']
    congr 1
    have hlen : (appended k (lpcContainer L (pre ++ (hp ++ pts)))).length = (Q k).length := by
      rw [appended_container, List.length_map, hpolys.length_eq]
    apply List.ext_getElem (by simp [hlen])
    intro i hi hi'
    have hi : i < (Q k).length := by simpa using hi'
    simp only [List.getElem_map, List.getElem_range, List.getElem_mapIdx, requested_container,
      (sess.requested k i).1]
    apply List.map_congr_left
    intro x _
    rw [appended_container]
    exact (lpcCoeffs_eval hL A le_rfl _ Q k hpolys i hi).1 x
  · simp only [KzgScheme.verifyEvalOn, hz, w.verifier.transcript sp.commitments w.cmKeys,
      Option.bind_eq_bind, Option.bind_some, hp2]

theorem kzg_run_from (T : KzgTranscript S F) (pre ops : List (LpcOp F)) (o0 : KzgScheme F)
    (hpre : runKzg L (batchedKzgSetup P d t alpha).ck codec pre = some o0) :
    (kzgComm L P (batchedKzgSetup P d t alpha) codec T).run o0 ops =
      runKzg L (batchedKzgSetup P d t alpha).ck codec (pre ++ ops) := by
  rw [runKzg_append, hpre]
  rfl

theorem kzg_run_new (T : KzgTranscript S F) (pre : List (LpcOp F)) :
    (kzgComm L P (batchedKzgSetup P d t alpha) codec T).run
      (kzgComm L P (batchedKzgSetup P d t alpha) codec T).new pre =
      runKzg L (batchedKzgSetup P d t alpha).ck codec pre := kzg_foldlM_eq _ _ _ _

theorem kzgComm_opens (hL : L.Lawful A) (hcodec : codec.Lawful) (T : KzgTranscript S F) {U : Finset F}
    (hU : U.card ≤ t) (hd : 0 < d) :
    (kzgComm L P (batchedKzgSetup P d t alpha) codec T).Opens (fun f c => f.Has L A c) d (KzgPoints d U)
      (fun _ => True) := by
  intro pre hp szs pts Q sess o0 o st0 st data hpre _ _ hrun
  rw [kzg_run_new] at hpre
  change (kzgComm L P (batchedKzgSetup P d t alpha) codec T).run o0 _ = _ at hrun
  rw [kzg_run_from T pre _ o0 hpre] at hrun
  obtain ⟨proof, st', h, -⟩ := kzg_session_proof hL hcodec T hU hd sess o0 o st hpre hrun
  show (o.proofEvalOn _ T st).isSome
  rw [h]
  rfl

theorem kzgComm_complete (hL : L.Lawful A) (hcodec : codec.Lawful) (T : KzgTranscript S F) {U : Finset F}
    (hU : U.card ≤ t) (hd : 0 < d) :
    (kzgComm L P (batchedKzgSetup P d t alpha) codec T).Complete (fun f c => f.Has L A c) d (KzgPoints d U)
      (fun _ => True) := by
  intro pre hp szs pts Q sess o0 o st0 st st' data proof hpre _ _ hrun hproof
  rw [kzg_run_new] at hpre
  change (kzgComm L P (batchedKzgSetup P d t alpha) codec T).run o0 _ = _ at hrun
  change o.proofEvalOn _ T st = _ at hproof
  rw [kzg_run_from T pre _ o0 hpre] at hrun
  obtain ⟨proof', st'', h, hz, v, hv, hver⟩ := kzg_session_proof hL hcodec T hU hd sess o0 o st hpre hrun
  rw [h, Option.some.injEq, Prod.mk.injEq] at hproof
  obtain ⟨rfl, rfl⟩ := hproof
  refine ⟨hz, v, ?_, ?_⟩
  · show (kzgComm L P (batchedKzgSetup P d t alpha) codec T).run o0 _ = _
    rw [kzg_run_from T pre _ o0 hpre, hv]
  · intro coms hsorted hcoms
    have inv := kzg_inv hrun
    have : coms = o.commitments := by
      refine OMap.ext_sorted hsorted inv.sorted fun k => ?_
      ext com
      rw [hcoms k com]
      show _ ∧ o.commitments.find k = some com ↔ _
      simp only [and_iff_right_iff_imp]
      intro hcom
      by_contra hno
      rw [inv.absent k (by
        rw [committed_container, ← List.append_assoc, List.mem_append]
        simp only [(sess.ptsNoCommit k).1, or_false]; exact hno)] at hcom
      simp at hcom
    rw [this]
    exact hver

end Crypto3Zk
