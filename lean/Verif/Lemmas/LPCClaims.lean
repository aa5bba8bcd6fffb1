import Verif.Lemmas.PlaceholderLpc

/-!
# Claims of LPC that can be exchanged

The verifier of LPC only uses the combination of the claimed values with the powers of `theta`, which is drawn
before they are known to be fixed (lpc.hpp:202-224). Two claims for the same point can be exchanged for others
with the same combination.
-/

set_option linter.unusedSectionVars false

namespace Crypto3Zk

variable {F : Type} [Field F] [DecidableEq F]

/-- the same polynomials, and the same effect on the running combination -/
def SameTerms (theta : F) (ts ts' : List ((Nat × Nat) × F)) : Prop :=
  ts.map Prod.fst = ts'.map Prod.fst ∧ ∀ s, ts.foldl (lpcUStep theta) s = ts'.foldl (lpcUStep theta) s

theorem SameTerms.refl (theta : F) (ts : List ((Nat × Nat) × F)) : SameTerms theta ts ts := ⟨rfl, fun _ => rfl⟩

theorem SameTerms.flatten {theta : F} {l l' : List (List ((Nat × Nat) × F))}
    (h : List.Forall₂ (SameTerms theta) l l') : SameTerms theta l.flatten l'.flatten := by
  induction h with
  | nil => exact .refl _ _
  | cons h _ ih =>
    refine ⟨?_, fun s => ?_⟩
    · simp only [List.flatten_cons, List.map_append, h.1, ih.1]
    · simp only [List.flatten_cons, List.foldl_append, h.2, ih.2]

theorem SameTerms.pair (theta a b delta : F) (p q : Nat × Nat) :
    SameTerms theta [(p, a + delta * theta), (q, b - delta)] [(p, a), (q, b)] := by
  refine ⟨rfl, fun s => ?_⟩
  simp only [List.foldl_cons, List.foldl_nil, lpcUStep, Prod.mk.injEq, true_and]
  ring

theorem mapM_rel {α β : Type} (R : β → β → Prop) (f g : α → Option β) (l : List α)
    (h : ∀ a ∈ l, Option.Rel R (f a) (g a)) : Option.Rel (List.Forall₂ R) (l.mapM f) (l.mapM g) := by
  induction l with
  | nil => exact .some .nil
  | cons a l ih =>
    have h1 := h a List.mem_cons_self
    have h2 := ih fun b hb => h b (List.mem_cons_of_mem _ hb)
    simp only [List.mapM_cons, Option.bind_eq_bind, Option.pure_def]
    cases hf : f a <;> cases hg : g a <;> rw [hf, hg] at h1 <;> cases h1
    · exact .none
    · rename_i x y hxy
      cases hf' : l.mapM f <;> cases hg' : l.mapM g <;> rw [hf', hg'] at h2 <;> cases h2
      · exact .none
      · rename_i h2
        exact .some (.cons hxy h2)

theorem optionRel_eq {β : Type} (R : β → β → Prop) (hR : ∀ b, R b b) {a b : Option β} (h : a = b) :
    Option.Rel R a b := by
  subst h
  cases a
  · exact .none
  · exact .some (hR _)

theorem optionRel_bind {β γ : Type} {R : β → β → Prop} {Q : γ → γ → Prop} {a b : Option β} {f g : β → γ}
    (h : Option.Rel R a b) (hf : ∀ x y, R x y → Q (f x) (g y)) :
    Option.Rel Q (a.bind fun x => some (f x)) (b.bind fun x => some (g x)) := by
  cases h with
  | none => exact .none
  | some h => exact .some (hf _ _ h)

variable {Tree Root Path S : Type}

/-- The storage with the claims for the batch `k` exchanged. -/
def EvalStorage.withBatch (z : EvalStorage F) (k : Nat) (w : List (List F)) : EvalStorage F :=
  List.map (fun e => (e.1, if e.1 = k then w else e.2)) z

theorem EvalStorage.find_withBatch (z : EvalStorage F) (k : Nat) (w : List (List F)) (j : Nat) :
    (z.withBatch k w).find j = if j = k then (z.find k).map (fun _ => w) else z.find j := by
  induction z with
  | nil => simp [withBatch, OMap.find]
  | cons e z ih =>
    obtain ⟨a, v⟩ := e
    unfold withBatch at ih ⊢
    simp only [List.map_cons, OMap.find]
    by_cases h : a = j
    · by_cases h' : j = k
      · simp [h, h']
      · simp [h, h']
    · rw [if_neg h, ih]
      by_cases h' : j = k
      · rw [if_pos h', if_pos h', if_neg (by rw [← h']; exact h)]
      · rw [if_neg h', if_neg h', if_neg h]

theorem EvalStorage.keys_withBatch (z : EvalStorage F) (k : Nat) (w : List (List F)) :
    (z.withBatch k w).batches = z.batches := by
  simp [withBatch, EvalStorage.batches, OMap.keys, Function.comp_def]

theorem lpcVerifierTerms_exchange (ev : PolysEvaluator F) (z : EvalStorage F) (k : Nat) (x a b delta theta : F)
    (hz : z.find k = some [[a], [b]]) (hpts : ev.points.find k = some [[x], [x]]) (x' : F) :
    Option.Rel (SameTerms theta)
      (lpcVerifierTerms { ev with z := z.withBatch k [[a + delta * theta], [b - delta]] } x')
      (lpcVerifierTerms { ev with z := z } x') := by
  unfold lpcVerifierTerms
  simp only [Option.bind_eq_bind, EvalStorage.keys_withBatch]
  refine optionRel_bind (mapM_rel (SameTerms theta) _ _ _ fun i _ => ?_) fun _ _ => SameTerms.flatten
  by_cases hi : i = k
  · subst hi
    have hg : ev.points.getD i [] = [[x], [x]] := by rw [OMap.getD, hpts]; rfl
    have h' : (z.withBatch i [[a + delta * theta], [b - delta]]).find i =
        some [[a + delta * theta], [b - delta]] := by
      rw [EvalStorage.find_withBatch, if_pos rfl, hz]; rfl
    have hr : List.range 2 = [0, 1] := rfl
    by_cases hx : x = x'
    · simp only [EvalStorage.batchSize, EvalStorage.get, EvalStorage.getPoly, h', hz, hg, Option.map_some,
        List.length_cons, List.length_nil, Option.bind_some, Nat.reduceAdd, hr, List.mapM_cons, List.mapM_nil,
        PolysEvaluator.firstIndex, hx, if_true, List.getElem?_cons_zero, List.getElem?_cons_succ,
        Option.bind_eq_bind, Option.pure_def, List.flatten_cons, List.flatten_nil, List.append_nil,
        List.cons_append, List.nil_append]
      exact .some (SameTerms.pair _ _ _ _ _ _)
    · simp only [EvalStorage.batchSize, EvalStorage.get, EvalStorage.getPoly, h', hz, hg, Option.map_some,
        List.length_cons, List.length_nil, Option.bind_some, Nat.reduceAdd, hr, List.mapM_cons, List.mapM_nil,
        PolysEvaluator.firstIndex, hx, if_false, List.getElem?_cons_zero, List.getElem?_cons_succ,
        Option.bind_eq_bind, Option.pure_def, List.flatten_cons, List.flatten_nil, List.append_nil,
        Option.map_none]
      exact .some (.refl _ _)
  · have hf : (z.withBatch k [[a + delta * theta], [b - delta]]).find i = z.find i := by
      rw [EvalStorage.find_withBatch, if_neg hi]
    apply optionRel_eq _ (SameTerms.refl theta)
    simp only [EvalStorage.batchSize, EvalStorage.get, EvalStorage.getPoly, hf]

theorem lpcItems_same (theta : F) {l l' : List (F × List ((Nat × Nat) × F))}
    (h : List.Forall₂ (fun e e' => e.1 = e'.1 ∧ SameTerms theta e.2 e'.2) l l') :
    ∀ acc, lpcItems theta acc l = lpcItems theta acc l' := by
  induction h with
  | nil => intro acc; rfl
  | @cons e e' _ _ h _ ih =>
    intro acc
    obtain ⟨x, ts⟩ := e
    obtain ⟨x', ts'⟩ := e'
    obtain ⟨h1, h2, h3⟩ := h
    simp only at h1 h2 h3
    simp only [lpcItems, h1, h2, h3, ih]

theorem lpcVerifierItems_exchange (v : LpcScheme F Tree) (z : EvalStorage F) (k : Nat) (x a b delta theta : F)
    (hz : z.find k = some [[a], [b]]) (hpts : v.ev.points.find k = some [[x], [x]]) :
    Option.Rel (List.Forall₂ (fun e e' => e.1 = e'.1 ∧ SameTerms theta e.2 e'.2))
      (lpcVerifierItems v (z.withBatch k [[a + delta * theta], [b - delta]])) (lpcVerifierItems v z) := by
  have hfix : lpcVerifierFixed v (z.withBatch k [[a + delta * theta], [b - delta]]) = lpcVerifierFixed v z := by
    unfold lpcVerifierFixed
    rw [EvalStorage.keys_withBatch]
    have : ∀ i, (z.withBatch k [[a + delta * theta], [b - delta]]).batchSize i = z.batchSize i := by
      intro i
      unfold EvalStorage.batchSize
      rw [EvalStorage.find_withBatch]
      by_cases hi : i = k
      · rw [if_pos hi, hi, hz]; rfl
      · rw [if_neg hi]
    simp only [this]
  have h1 := mapM_rel (fun e e' : F × List ((Nat × Nat) × F) => e.1 = e'.1 ∧ SameTerms theta e.2 e'.2)
    (fun x' => (lpcVerifierTerms { v.ev with z := z.withBatch k [[a + delta * theta], [b - delta]] } x').bind
      fun ts => some (x', ts))
    (fun x' => (lpcVerifierTerms { v.ev with z := z } x').bind fun ts => some (x', ts)) v.ev.uniquePoints
    fun x' _ => optionRel_bind (lpcVerifierTerms_exchange v.ev z k x a b delta theta hz hpts x')
      fun _ _ h => ⟨rfl, h⟩
  unfold lpcVerifierItems
  rw [hfix]
  simp only [Option.bind_eq_bind]
  have hu : ∀ u, ({ v.ev with z := u } : PolysEvaluator F).uniquePoints = v.ev.uniquePoints := fun _ => rfl
  simp only [hu]
  generalize List.mapM (fun x' => (lpcVerifierTerms { v.ev with
    z := z.withBatch k [[a + delta * theta], [b - delta]] } x').bind fun ts => some (x', ts)) v.ev.uniquePoints = l at h1 ⊢
  generalize List.mapM (fun x' => (lpcVerifierTerms { v.ev with z := z } x').bind fun ts => some (x', ts))
    v.ev.uniquePoints = l' at h1 ⊢
  cases h1 with
  | none => exact .none
  | some h1 =>
    simp only [Option.bind_some]
    split_ifs
    · cases lpcVerifierFixed v z with
      | none => exact .none
      | some ts =>
        exact .some (List.rel_append h1 (.cons ⟨rfl, .refl _ _⟩ .nil))
    · exact .some h1

/-- Two claims for the same point can be exchanged in any proof, with the same verdict. -/
theorem lpc_claims_exchange [DecidableEq Root] (M : MerkleLib F Tree Root Path)
    (T : FriTranscript S F Root) (prm : FriParams F) (v : LpcScheme F Tree) (z : EvalStorage F) (k : Nat)
    (x a b delta : F) (hz : z.find k = some [[a], [b]]) (hpts : v.ev.points.find k = some [[x], [x]])
    (fp : FriProof F Root Path) (commitments : OMap Root) (st : S) (theta : F)
    (hth : (T.challenge (commitments.foldl (fun st e => T.absorbRoot st e.2) st)).2 = theta) :
    LpcScheme.verifyEval M T prm v (z.withBatch k [[a + delta * theta], [b - delta]], fp) commitments st =
      LpcScheme.verifyEval M T prm v (z, fp) commitments st := by
  unfold LpcScheme.verifyEval
  have h := lpcVerifierItems_exchange v z k x a b delta theta hz hpts
  dsimp only
  rw [hth]
  generalize lpcVerifierItems v (z.withBatch k [[a + delta * theta], [b - delta]]) = l at h ⊢
  generalize lpcVerifierItems v z = l' at h ⊢
  cases h with
  | none => rfl
  | some h =>
    simp only [Option.bind_eq_bind, Option.bind_some]
    rw [lpcItems_same theta h]

end Crypto3Zk
