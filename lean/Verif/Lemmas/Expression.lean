import Verif.Spec.Expression
import Verif.Lemmas.CountMap
import Mathlib.Algebra.BigOperators.Group.List.Lemmas
import Mathlib.Algebra.BigOperators.Ring.List
import Mathlib.Data.List.Perm.Lattice

set_option linter.unusedSectionVars false

namespace Crypto3Zk

variable {V R : Type*} [LinearOrder V] [CommRing R] [DecidableEq R]

theorem decideEq_equiv {K : Type*} [DecidableEq K] :
    CountMap.IsEquivB (fun a b : K => decide (a = b)) where
  refl := by simp
  symm := by simp
  trans := by simp

theorem eqv_eq_iff_perm {K : Type*} [DecidableEq K] (xs ys : List K) :
    CountMap.eqv (fun a b : K => decide (a = b)) xs ys = true ↔ xs.Perm ys := by
  rw [CountMap.eqv_iff decideEq_equiv, List.perm_iff_count]
  simp only [List.count_eq_countP]
  constructor <;> intro h k <;> have := h k <;> simpa [beq_eq_decide] using this

theorem Term.beq_iff (s t : Term V R) :
    s.beq t = true ↔ s.coeff = t.coeff ∧ s.vars.Perm t.vars := by
  simp only [Term.beq]
  by_cases h : s.coeff = t.coeff
  · simp only [h, ne_eq, not_true_eq_false, if_false, true_and]
    exact eqv_eq_iff_perm _ _
  · simp [h]

theorem Term.beq_equiv : CountMap.IsEquivB (Term.beq (V := V) (R := R)) where
  refl a := by simp [Term.beq_iff]
  symm a b := by
    simp only [Term.beq_iff]; exact fun h => ⟨h.1.symm, h.2.symm⟩
  trans a b c := by
    simp only [Term.beq_iff]; exact fun h h' => ⟨h.1.trans h'.1, h.2.trans h'.2⟩

theorem foldl_mul_eq (get : V → R) (vs : List V) (c : R) :
    vs.foldl (fun res v => res * get v) c = c * (vs.map get).prod := by
  induction vs generalizing c with
  | nil => simp
  | cons v vs ih => simp [ih, mul_assoc]

theorem Expr.eval_term (get : V → R) (t : Term V R) : (Expr.term t).eval get = t.value get := by
  simp [Expr.eval, Term.value, foldl_mul_eq]

theorem Term.value_beq (get : V → R) {s t : Term V R} (h : s.beq t = true) :
    s.value get = t.value get := by
  rw [Term.beq_iff] at h
  simp only [Term.value, h.1]
  rw [(h.2.map get).prod_eq]

theorem Term.value_mul (get : V → R) (s t : Term V R) :
    (s.mul t).value get = s.value get * t.value get := by
  simp only [Term.mul]
  split
  · rename_i h
    simp only [Term.isZero, Bool.or_eq_true, beq_iff_eq] at h
    rcases h with h | h <;> simp [Term.value, Term.zero, h]
  · simp only [Term.value, List.map_append, List.prod_append]; ring

theorem Term.value_neg (get : V → R) (t : Term V R) : t.neg.value get = -t.value get := by
  simp [Term.neg, Term.value]

namespace Expr

theorem beq_iff (e f : Expr V R) : e.beq f = true ↔ SameUpToOrder e f := by
  induction e generalizing f with
  | term s =>
    cases f with
    | term t =>
      simp only [beq, Term.beq_iff]
      obtain ⟨vs, c⟩ := s; obtain ⟨ws, d⟩ := t
      constructor
      · rintro ⟨h1, h2⟩
        simp only at h1 h2
        subst h1
        exact .term h2
      · intro h; cases h with | term h => exact ⟨rfl, h⟩
    | pow f q => simp only [beq, Bool.false_eq_true, false_iff]; intro h; cases h
    | bin o l r => simp only [beq, Bool.false_eq_true, false_iff]; intro h; cases h
  | pow e p ih =>
    cases f with
    | pow f q =>
      simp only [beq, Bool.and_eq_true, decide_eq_true_eq, ih]
      constructor
      · rintro ⟨rfl, h⟩; exact .pow h
      · intro h; cases h with | pow h => exact ⟨rfl, h⟩
    | term t => simp only [beq, Bool.false_eq_true, false_iff]; intro h; cases h
    | bin o l r => simp only [beq, Bool.false_eq_true, false_iff]; intro h; cases h
  | bin o l r ihl ihr =>
    cases f with
    | bin o' l' r' =>
      simp only [beq, Bool.and_eq_true, decide_eq_true_eq, ihl, ihr]
      constructor
      · rintro ⟨rfl, h, h'⟩; exact .bin h h'
      · intro h; cases h with | bin h h' => exact ⟨rfl, h, h'⟩
    | term t => simp only [beq, Bool.false_eq_true, false_iff]; intro h; cases h
    | pow f q => simp only [beq, Bool.false_eq_true, false_iff]; intro h; cases h

theorem eval_same (get : V → R) {e f : Expr V R} (h : SameUpToOrder e f) :
    e.eval get = f.eval get := by
  induction h with
  | term h =>
    simp only [eval_term, Term.value]
    rw [(h.map get).prod_eq]
  | pow h ih => simp [eval, ih]
  | bin h h' ih ih' => rename_i o _ _ _ _; cases o <;> simp [eval, ih, ih']

theorem eval_beq (get : V → R) {e f : Expr V R} (h : e.beq f = true) : e.eval get = f.eval get :=
  eval_same get ((beq_iff e f).1 h)

theorem eval_isEmpty (get : V → R) {e : Expr V R} (h : e.isEmpty = true) : e.eval get = 0 := by
  rw [eval_beq get h]; simp [eval, Term.ofConst]

theorem eval_add (get : V → R) (e f : Expr V R) : (e.add f).eval get = e.eval get + f.eval get := by
  simp only [add]
  split
  · rename_i h; simp [eval_isEmpty get h]
  · split
    · rename_i h; simp [eval_isEmpty get h]
    · rfl

theorem eval_addAssign (get : V → R) (e f : Expr V R) :
    (e.addAssign f).eval get = e.eval get + f.eval get := by
  simp only [addAssign]
  split
  · rename_i h; simp [eval_isEmpty get h]
  · split
    · rfl
    · rename_i h; simp [eval_isEmpty get (by simpa using h : f.isEmpty = true)]

theorem eval_mul (get : V → R) (e f : Expr V R) : (e.mul f).eval get = e.eval get * f.eval get := by
  simp only [mul]
  split
  · rename_i h
    rcases Bool.or_eq_true _ _ ▸ h with h | h <;>
      simp [eval_isEmpty get h, empty, eval, Term.ofConst]
  · rfl

theorem eval_mulAssign (get : V → R) (e f : Expr V R) :
    (e.mulAssign f).eval get = e.eval get * f.eval get := eval_mul get e f

theorem eval_neg (get : V → R) (e : Expr V R) : e.neg.eval get = -e.eval get := by
  simp [neg, sub, eval, Term.ofConst]

/-! cached evaluator -/

def CacheOK (get : V → R) (s : CacheState V R) : Prop := ∀ e ∈ s.cache, e.2 = e.1.eval get

theorem mapFind_ok (get : V → R) {m : List (Expr V R × R)} (h : ∀ e ∈ m, e.2 = e.1.eval get)
    {k : Expr V R} {v : R} (hf : mapFind m k = some v) : v = k.eval get := by
  simp only [mapFind, Option.map_eq_some_iff] at hf
  obtain ⟨e, he, rfl⟩ := hf
  have h1 := List.find?_some he
  rw [h e (List.mem_of_find?_eq_some he)]
  exact eval_beq get (by simpa using h1)

theorem mapSet_ok (get : V → R) (m : List (Expr V R × R)) (h : ∀ e ∈ m, e.2 = e.1.eval get)
    (k : Expr V R) : ∀ e ∈ mapSet m k (k.eval get), e.2 = e.1.eval get := by
  induction m with
  | nil => simp [mapSet]
  | cons a m ih =>
    obtain ⟨k', v'⟩ := a
    simp only [mapSet]
    split
    · rename_i hb
      intro e he
      rcases List.mem_cons.1 he with rfl | he
      · exact (eval_beq get hb).symm
      · exact h e (by simp [he])
    · intro e he
      rcases List.mem_cons.1 he with rfl | he
      · exact h _ (by simp)
      · exact ih (fun e he => h e (by simp [he])) e he

theorem mapErase_subset (m : List (Expr V R × R)) (k : Expr V R) :
    ∀ e ∈ mapErase m k, e ∈ m := by
  induction m with
  | nil => simp [mapErase]
  | cons a m ih =>
    obtain ⟨k', v'⟩ := a
    simp only [mapErase]
    split
    · intro e he; simp [he]
    · intro e he
      rcases List.mem_cons.1 he with rfl | he
      · simp
      · simp [ih e he]

theorem cacheHit_ok (get : V → R) (s : CacheState V R) (h : CacheOK get s) (k : Expr V R) (v : R)
    (hv : v = k.eval get) :
    (cacheHit k v s).1 = k.eval get ∧ CacheOK get (cacheHit k v s).2 := by
  refine ⟨hv, ?_⟩
  simp only [cacheHit, CacheOK]
  split
  · intro e he; exact h e (mapErase_subset _ _ e he)
  · exact h

theorem cacheStore_ok (get : V → R) (s : CacheState V R) (h : CacheOK get s) (k : Expr V R) (v : R)
    (hv : v = k.eval get) :
    (cacheStore k v s).1 = k.eval get ∧ CacheOK get (cacheStore k v s).2 := by
  refine ⟨hv, ?_⟩
  simp only [cacheStore, CacheOK]
  split
  · rw [hv]; exact mapSet_ok get _ h k
  · exact h

theorem termLoop_eq (get : V → R) (vs : List V) (c : R) :
    termLoop get vs c = c * (vs.map get).prod := by
  rw [← foldl_mul_eq]
  unfold termLoop
  congr 1
  funext res v
  split
  · rename_i h; simp [h]
  · rfl

theorem evalCached_ok (get : V → R) (e : Expr V R) (s : CacheState V R) (h : CacheOK get s) :
    (evalCached get e s).1 = e.eval get ∧ CacheOK get (evalCached get e s).2 := by
  induction e generalizing s with
  | term t =>
    simp only [evalCached]
    split
    · rename_i hl
      have : t.vars = [] := List.length_eq_zero_iff.1 hl
      exact ⟨by simp [eval, this], h⟩
    · split
      · rename_i v hv
        apply cacheHit_ok get s h
        split at hv
        · exact mapFind_ok get h hv
        · simp at hv
      · apply cacheStore_ok get s h
        rw [termLoop_eq, eval_term, Term.value]
  | pow e p ih =>
    simp only [evalCached]
    split
    · rename_i v hv
      exact cacheHit_ok get s h _ _ (mapFind_ok get h hv)
    · obtain ⟨h1, h2⟩ := ih s h
      apply cacheStore_ok get _ h2
      simp [eval, h1]
  | bin o l r ihl ihr =>
    simp only [evalCached]
    split
    · rename_i v hv
      exact cacheHit_ok get s h _ _ (mapFind_ok get h hv)
    · obtain ⟨h1, h2⟩ := ihl s h
      obtain ⟨h3, h4⟩ := ihr _ h2
      apply cacheStore_ok get _ h4
      cases o <;> simp [eval, h1, h3]

theorem cachedCalls_ok (get : V → R) (e : Expr V R) (n : Nat) (s : CacheState V R)
    (h : CacheOK get s) : cachedCalls get e n s = List.replicate n (e.eval get) := by
  induction n generalizing s with
  | zero => rfl
  | succ n ih =>
    have h1 : CacheOK get (⟨countSub e [], s.cache⟩ : CacheState V R) := h
    obtain ⟨h2, h3⟩ := evalCached_ok get e _ h1
    simp only [cachedCalls, List.replicate_succ, evaluateCached, h2]
    rw [ih _ h3]

/-! degree -/

theorem maxDegree32_lt (e : Expr V R) : e.maxDegree32 < 2 ^ 32 := by
  induction e with
  | term t => exact Nat.mod_lt _ (by norm_num)
  | pow e p ih => exact Nat.mod_lt _ (by norm_num)
  | bin o l r ihl ihr =>
    cases o
    · simp only [maxDegree32]; exact max_lt ihl ihr
    · simp only [maxDegree32]; exact max_lt ihl ihr
    · exact Nat.mod_lt _ (by norm_num)

theorem maxDegree32_eq (e : Expr V R) (h : e.degree < 2 ^ 32) : e.maxDegree32 = e.degree := by
  induction e with
  | term t => exact Nat.mod_eq_of_lt h
  | pow e p ih =>
    simp only [maxDegree32, degree] at h ⊢
    rcases Nat.eq_zero_or_pos p with rfl | hp
    · simp
    · have : e.degree < 2 ^ 32 := lt_of_le_of_lt (Nat.le_mul_of_pos_right _ hp) h
      rw [ih this]; exact Nat.mod_eq_of_lt h
  | bin o l r ihl ihr =>
    cases o
    · simp only [maxDegree32, degree] at h ⊢
      rw [ihl (lt_of_le_of_lt (le_max_left _ _) h), ihr (lt_of_le_of_lt (le_max_right _ _) h)]
    · simp only [maxDegree32, degree] at h ⊢
      rw [ihl (lt_of_le_of_lt (le_max_left _ _) h), ihr (lt_of_le_of_lt (le_max_right _ _) h)]
    · simp only [maxDegree32, degree] at h ⊢
      rw [ihl (by omega), ihr (by omega)]
      exact Nat.mod_eq_of_lt h

/-! flattening -/

end Expr

namespace NLC

theorem value_append (get : V → R) (a b : NLC V R) :
    NLC.value get (a ++ b) = NLC.value get a + NLC.value get b := by
  simp [NLC.value]

theorem value_scale (get : V → R) (a : NLC V R) (c : R) :
    (NLC.scale a c).value get = a.value get * c := by
  induction a with
  | nil => simp [NLC.scale, NLC.value]
  | cons t a ih =>
    simp only [NLC.scale, NLC.value, List.map_cons, List.sum_cons, List.map_map] at ih ⊢
    rw [ih, Term.value_mul]
    simp [Term.value, Term.ofConst, add_mul]

theorem value_sub (get : V → R) (a b : NLC V R) :
    (NLC.sub a b).value get = a.value get - b.value get := by
  simp only [NLC.sub, NLC.add, value_append, NLC.neg, value_scale]; ring

theorem value_mul (get : V → R) (a b : NLC V R) :
    (NLC.mul a b).value get = a.value get * b.value get := by
  induction a with
  | nil => simp [NLC.mul, NLC.value]
  | cons s a ih =>
    simp only [NLC.mul, List.flatMap_cons] at ih ⊢
    rw [value_append, ih]
    have : NLC.value get (b.map fun t => s.mul t) = s.value get * b.value get := by
      simp only [NLC.value, List.map_map, Function.comp_def, Term.value_mul]
      rw [List.sum_map_mul_left]
    rw [this]
    simp [NLC.value, add_mul]

/-- sum of the map built by `mergeEqualTerms` -/
def mapValue (get : V → R) (m : List (Term V R × R)) : R :=
  (m.map fun e => e.2 * (e.1.vars.map get).prod).sum

theorem mapValue_insert (get : V → R) (m : List (Term V R × R)) (t : Term V R)
    : mapValue get (mergeInsert m t) = mapValue get m + t.value get := by
  induction m with
  | nil => simp [mergeInsert, mapValue, Term.value]
  | cons e m ih =>
    obtain ⟨k, c⟩ := e
    simp only [mergeInsert]
    split
    · rename_i h
      rw [Term.beq_iff] at h
      simp only [mapValue, List.map_cons, List.sum_cons, Term.value]
      rw [← ((h.2.map get).prod_eq : _ = (List.map get t.vars).prod)]
      ring
    · simp only [mapValue, List.map_cons, List.sum_cons] at ih ⊢
      rw [ih]; ring

theorem mapValue_foldl (get : V → R) (a : NLC V R) (m : List (Term V R × R)) :
    mapValue get (a.foldl mergeInsert m) = mapValue get m + a.value get := by
  induction a generalizing m with
  | nil => simp [NLC.value]
  | cons t a ih =>
    simp only [List.foldl_cons]
    rw [ih, mapValue_insert]
    simp [NLC.value]; ring

theorem value_filterMap (get : V → R) (m : List (Term V R × R)) :
    NLC.value get ((m.filter fun e => decide (e.2 ≠ 0)).map fun e => ⟨e.1.vars, e.2⟩)
      = mapValue get m := by
  induction m with
  | nil => simp [NLC.value, mapValue]
  | cons e m ih =>
    simp only [List.filter_cons]
    simp only [NLC.value, mapValue] at ih ⊢
    by_cases h : e.2 = 0
    · simp only [h, ne_eq, not_true_eq_false, decide_false, Bool.false_eq_true, if_false]
      rw [ih]; simp [h]
    · simp only [h, ne_eq, not_false_eq_true, decide_true, if_true, List.map_cons, List.sum_cons]
      rw [ih]; simp [Term.value]

theorem mapValue_perm (get : V → R) {m m' : List (Term V R × R)} (h : m.Perm m') :
    mapValue get m = mapValue get m' := (h.map _).sum_eq

theorem value_merge (get : V → R) (iter) (hi : IsIterOrder iter) (a : NLC V R) :
    (mergeEqualTerms iter a).value get = a.value get := by
  simp only [mergeEqualTerms]
  rw [value_filterMap, mapValue_perm get (hi _), mapValue_foldl]
  simp [mapValue]

/-- keys pairwise distinct up to order -/
def KeysOK (m : List (Term V R × R)) : Prop :=
  m.Pairwise fun a b => ¬ a.1.vars.Perm b.1.vars

theorem mem_insert_keys (m : List (Term V R × R)) (hk : ∀ e ∈ m, e.1.coeff = 1) (t : Term V R) :
    (∀ e ∈ mergeInsert m t, e.1.coeff = 1) ∧
    (∀ e ∈ mergeInsert m t, (∃ e' ∈ m, e'.1 = e.1) ∨ e.1.vars = t.vars) := by
  induction m with
  | nil => simp [mergeInsert]
  | cons e m ih =>
    obtain ⟨k, c⟩ := e
    obtain ⟨i1, i2⟩ := ih (fun e he => hk e (by simp [he]))
    have hk1 : k.coeff = 1 := hk (k, c) (by simp)
    have hk2 : ∀ e ∈ m, e.1.coeff = 1 := fun e he => hk e (by simp [he])
    simp only [mergeInsert]
    split
    · constructor
      · intro e he
        rcases List.mem_cons.1 he with rfl | he
        · exact hk1
        · exact hk2 e he
      · intro e he
        rcases List.mem_cons.1 he with rfl | he
        · exact .inl ⟨(k, c), by simp, rfl⟩
        · exact .inl ⟨e, by simp [he], rfl⟩
    · constructor
      · intro e he
        rcases List.mem_cons.1 he with rfl | he
        · exact hk1
        · exact i1 e he
      · intro e he
        rcases List.mem_cons.1 he with rfl | he
        · exact .inl ⟨(k, c), by simp, rfl⟩
        · rcases i2 e he with ⟨e', he', h⟩ | h
          · exact .inl ⟨e', by simp [he'], h⟩
          · exact .inr h

theorem keysOK_insert (m : List (Term V R × R)) (hk : ∀ e ∈ m, e.1.coeff = 1) (h : KeysOK m)
    (t : Term V R) : KeysOK (mergeInsert m t) := by
  induction m with
  | nil => simp [mergeInsert, KeysOK]
  | cons e m ih =>
    obtain ⟨k, c⟩ := e
    have hk1 : k.coeff = 1 := hk (k, c) (by simp)
    have hk2 : ∀ e ∈ m, e.1.coeff = 1 := fun e he => hk e (by simp [he])
    simp only [KeysOK, List.pairwise_cons] at h
    simp only [mergeInsert]
    split
    · simpa [KeysOK] using h
    · rename_i hb
      simp only [KeysOK, List.pairwise_cons]
      refine ⟨?_, ih hk2 h.2⟩
      intro e he hp
      rcases (mem_insert_keys m hk2 t).2 e he with ⟨e', he', h'⟩ | h'
      · exact h.1 e' he' (by rw [h']; exact hp)
      · apply hb
        rw [Term.beq_iff]
        exact ⟨hk1, by rw [← h']; exact hp⟩

theorem keysOK_foldl (a : NLC V R) (m : List (Term V R × R)) (hk : ∀ e ∈ m, e.1.coeff = 1)
    (h : KeysOK m) : KeysOK (a.foldl mergeInsert m) := by
  induction a generalizing m with
  | nil => exact h
  | cons t a ih => exact ih _ (mem_insert_keys m hk t).1 (keysOK_insert m hk h t)

theorem keys_foldl (a : NLC V R) (m : List (Term V R × R)) (hk : ∀ e ∈ m, e.1.coeff = 1) :
    ∀ e ∈ a.foldl mergeInsert m, (∃ e' ∈ m, e'.1 = e.1) ∨ ∃ t ∈ a, e.1.vars = t.vars := by
  induction a generalizing m with
  | nil => intro e he; exact .inl ⟨e, he, rfl⟩
  | cons t a ih =>
    intro e he
    rcases ih _ (mem_insert_keys m hk t).1 e he with ⟨e', he', h⟩ | ⟨t', ht', h⟩
    · rcases (mem_insert_keys m hk t).2 e' he' with ⟨e'', he'', h''⟩ | h''
      · exact .inl ⟨e'', he'', by rw [h'', h]⟩
      · exact .inr ⟨t, by simp, by rw [← h, h'']⟩
    · exact .inr ⟨t', by simp [ht'], h⟩

theorem merge_distinct (iter) (hi : IsIterOrder iter) (a : NLC V R) :
    (mergeEqualTerms iter a).Pairwise (fun s t => ¬ s.vars.Perm t.vars) ∧
    (∀ t ∈ mergeEqualTerms iter a, t.coeff ≠ 0) ∧
    (∀ t ∈ mergeEqualTerms iter a, ∃ t' ∈ a, t'.vars = t.vars) := by
  refine ⟨?_, ?_, ?_⟩
  · simp only [mergeEqualTerms]
    rw [List.pairwise_map]
    apply List.Pairwise.filter
    have h := keysOK_foldl a [] (by simp) (by simp [KeysOK])
    exact (hi _).symm.pairwise h (fun {x y} hxy hp => hxy hp.symm)
  · intro t ht
    simp only [mergeEqualTerms, List.mem_map, List.mem_filter] at ht
    obtain ⟨e, ⟨_, he⟩, rfl⟩ := ht
    simpa using he
  · intro t ht
    simp only [mergeEqualTerms, List.mem_map, List.mem_filter] at ht
    obtain ⟨e, ⟨he, _⟩, rfl⟩ := ht
    rcases keys_foldl a [] (by simp) e ((hi _).mem_iff.1 he) with ⟨e', he', _⟩ | ⟨t, ht, h⟩
    · simp at he'
    · exact ⟨t, ht, h.symm⟩

end NLC

namespace Expr

theorem powLoop_value (get : V → R) (base : NLC V R) (p : Nat) (hp : 1 ≤ p) :
    (powLoop base p).value get = base.value get ^ p := by
  induction p with
  | zero => omega
  | succ p ih =>
    cases p with
    | zero => simp [powLoop]
    | succ p =>
      simp only [powLoop]
      rw [NLC.value_mul, ih (by omega)]; ring

theorem flatten_value (get : V → R) (e : Expr V R) (h : e.PowersPositive) :
    e.flatten.value get = e.eval get := by
  induction e with
  | term t => simp [flatten, NLC.value, eval_term]
  | pow e p ih =>
    simp only [flatten, eval]
    rw [powLoop_value get _ _ h.1, ih h.2]
  | bin o l r ihl ihr =>
    cases o
    · simp only [flatten, NLC.add, NLC.value_append, eval, ihl h.1, ihr h.2]
    · simp only [flatten, NLC.value_sub, eval, ihl h.1, ihr h.2]
    · simp only [flatten, NLC.value_mul, eval, ihl h.1, ihr h.2]

theorem mul_len (s t : Term V R) : (s.mul t).vars.length ≤ s.vars.length + t.vars.length := by
  simp only [Term.mul]
  split <;> simp [Term.zero]

theorem nlc_mul_len (a b : NLC V R) (m n : Nat) (ha : ∀ t ∈ a, t.vars.length ≤ m)
    (hb : ∀ t ∈ b, t.vars.length ≤ n) : ∀ t ∈ NLC.mul a b, t.vars.length ≤ m + n := by
  intro t ht
  simp only [NLC.mul, List.mem_flatMap, List.mem_map] at ht
  obtain ⟨s, hs, t', ht', rfl⟩ := ht
  have := mul_len s t'
  have := ha s hs
  have := hb t' ht'
  omega

theorem powLoop_len (base : NLC V R) (m p : Nat) (hp : 1 ≤ p)
    (hb : ∀ t ∈ base, t.vars.length ≤ m) : ∀ t ∈ powLoop base p, t.vars.length ≤ m * p := by
  induction p with
  | zero => omega
  | succ p ih =>
    cases p with
    | zero => simpa [powLoop] using hb
    | succ p =>
      simp only [powLoop]
      have := nlc_mul_len _ _ _ _ (ih (by omega)) hb
      intro t ht
      have := this t ht
      linarith [Nat.mul_succ m (p + 1)]

theorem flatten_len (e : Expr V R) (h : e.PowersPositive) :
    ∀ t ∈ e.flatten, t.vars.length ≤ e.degree := by
  induction e with
  | term t => simp [flatten, degree]
  | pow e p ih => exact powLoop_len _ _ _ h.1 (ih h.2)
  | bin o l r ihl ihr =>
    have il := ihl h.1
    have ir := ihr h.2
    cases o
    · intro t ht
      simp only [flatten, NLC.add, List.mem_append, degree] at ht ⊢
      rcases ht with ht | ht
      · have := il t ht; omega
      · have := ir t ht; omega
    · intro t ht
      simp only [flatten, NLC.sub, NLC.add, NLC.neg, NLC.scale, List.mem_append, degree,
        List.mem_map] at ht ⊢
      rcases ht with ht | ⟨t', ht', rfl⟩
      · have := il t ht; omega
      · have := ir t' ht'
        have := mul_len t' (Term.ofConst (-1) : Term V R)
        simp [Term.ofConst] at this ⊢
        right; omega
    · intro t ht
      exact nlc_mul_len _ _ _ _ il ir t ht

end Expr

theorem foldl_max (a : List Nat) (d0 d : Nat) :
    (a.foldl (fun d n => max d n) d0 ≤ d) ↔ d0 ≤ d ∧ ∀ n ∈ a, n ≤ d := by
  induction a generalizing d0 with
  | nil => simp
  | cons n a ih => simp [ih, and_assoc]

theorem NLC.maxDegree_le (a : NLC V R) (d : Nat) :
    a.maxDegree ≤ d ↔ ∀ t ∈ a, t.vars.length ≤ d := by
  have : a.maxDegree = (a.map fun t => t.vars.length).foldl (fun d n => max d n) 0 := by
    simp [NLC.maxDegree, List.foldl_map]
  rw [this, foldl_max]; simp

theorem Term.hash_eq {H : Type*} (hR : R → H) (hV : V → H) (combine : H → H → H) {s t : Term V R}
    (hc : s.coeff = t.coeff) (hv : s.vars.Perm t.vars) :
    s.hash hR hV combine = t.hash hR hV combine := by
  have : s.vars.insertionSort (· ≤ ·) = t.vars.insertionSort (· ≤ ·) := by
    apply List.Perm.eq_of_pairwise (le := (· ≤ ·))
    · exact fun a b _ _ h1 h2 => le_antisymm h1 h2
    · exact List.pairwise_insertionSort (· ≤ ·) _
    · exact List.pairwise_insertionSort (· ≤ ·) _
    · exact (List.perm_insertionSort _ _).trans (hv.trans (List.perm_insertionSort _ _).symm)
  simp [Term.hash, this, hc]

end Crypto3Zk
