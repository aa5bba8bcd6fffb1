import Verif.Spec.CachedEvaluator
import Verif.Lemmas.Expression
import Verif.Props.Expression

/-!
# Lemmas for C105
-/

set_option linter.unusedSectionVars false

namespace Crypto3Zk

variable {V R : Type*} [LinearOrder V] [CommRing R] [DecidableEq R]

namespace Expr

theorem beq_refl' (e : Expr V R) : e.beq e = true := C08_eq_equivalence.1 e

theorem beq_symm' {e f : Expr V R} (h : e.beq f = true) : f.beq e = true := C08_eq_equivalence.2.1 e f h

theorem beq_trans' {e f g : Expr V R} (h : e.beq f = true) (h' : f.beq g = true) : e.beq g = true :=
  C08_eq_equivalence.2.2 e f g h h'

theorem beq_left {e f : Expr V R} (h : e.beq f = true) (g : Expr V R) : e.beq g = f.beq g := by
  rw [Bool.eq_iff_iff]
  exact ⟨fun h' => beq_trans' (beq_symm' h) h', fun h' => beq_trans' h h'⟩

theorem beq_right {e f : Expr V R} (h : e.beq f = true) (g : Expr V R) : g.beq e = g.beq f := by
  rw [Bool.eq_iff_iff]
  exact ⟨fun h' => beq_trans' h' h, fun h' => beq_trans' h' (beq_symm' h)⟩

/-- The number of nodes. -/
def nodes : Expr V R → Nat
  | .term _ => 1
  | .pow e _ => e.nodes + 1
  | .bin _ l r => l.nodes + r.nodes + 1

theorem nodes_beq : ∀ {e f : Expr V R}, e.beq f = true → e.nodes = f.nodes
  | .term _, .term _, _ => rfl
  | .term _, .pow _ _, h => by simp [beq] at h
  | .term _, .bin _ _ _, h => by simp [beq] at h
  | .pow _ _, .term _, h => by simp [beq] at h
  | .pow e p, .pow f q, h => by
    simp only [beq, Bool.and_eq_true] at h
    simp only [nodes, nodes_beq h.2]
  | .pow _ _, .bin _ _ _, h => by simp [beq] at h
  | .bin _ _ _, .term _, h => by simp [beq] at h
  | .bin _ _ _, .pow _ _, h => by simp [beq] at h
  | .bin o l r, .bin o' l' r', h => by
    simp only [beq, Bool.and_eq_true] at h
    simp only [nodes, nodes_beq h.2.1, nodes_beq h.2.2]

theorem worth_beq {e f : Expr V R} (h : e.beq f = true) (hw : f.Worth) : e.Worth := by
  cases e with
  | term s =>
    cases f with
    | term t =>
      simp only [beq, Term.beq_iff] at h
      simp only [Worth] at hw ⊢
      rw [h.2.length_eq]; exact hw
    | pow => simp [beq] at h
    | bin => simp [beq] at h
  | pow => trivial
  | bin => trivial

theorem nodes_subexprs : ∀ (e : Expr V R), ∀ k ∈ e.subexprs, k.nodes ≤ e.nodes
  | .term t, k, hk => by simp only [subexprs, List.mem_singleton] at hk; rw [hk]
  | .pow e p, k, hk => by
    rcases List.mem_cons.1 hk with rfl | hk
    · exact le_rfl
    · exact (nodes_subexprs e k hk).trans (by simp [nodes])
  | .bin o l r, k, hk => by
    rcases List.mem_cons.1 hk with rfl | hk
    · exact le_rfl
    · rcases List.mem_append.1 hk with hk | hk
      · exact (nodes_subexprs l k hk).trans (by simp [nodes]; omega)
      · exact (nodes_subexprs r k hk).trans (by simp [nodes]; omega)

theorem mapFind_mapSet {T : Type*} (m : List (Expr V R × T)) (k : Expr V R) (v : T) (k' : Expr V R) :
    mapFind (mapSet m k v) k' = if k.beq k' then some v else mapFind m k' := by
  induction m with
  | nil =>
    simp only [mapSet, mapFind, List.find?_cons, List.find?_nil]
    cases h : k.beq k' <;> simp
  | cons a m ih =>
    obtain ⟨a, w⟩ := a
    simp only [mapSet]
    by_cases h : a.beq k = true
    · rw [if_pos h]
      simp only [mapFind, List.find?_cons]
      rw [beq_left h k']
      cases k.beq k' <;> simp
    · rw [if_neg h]
      simp only [mapFind, List.find?_cons] at ih ⊢
      cases ha : a.beq k' with
      | true =>
        have : k.beq k' = false := by
          rw [Bool.eq_false_iff]
          intro hk
          exact h (beq_trans' ha (beq_symm' hk))
        simp [this]
      | false => simpa using ih

theorem mapFind_mapErase {T : Type*} (m : List (Expr V R × T)) {k k' : Expr V R} (h : k.beq k' = false) :
    mapFind (mapErase m k) k' = mapFind m k' := by
  induction m with
  | nil => rfl
  | cons a m ih =>
    obtain ⟨a, w⟩ := a
    simp only [mapErase]
    by_cases ha : a.beq k = true
    · rw [if_pos ha]
      simp only [mapFind, List.find?_cons]
      rw [beq_left ha k', h]
    · rw [if_neg ha]
      simp only [mapFind, List.find?_cons] at ih ⊢
      cases a.beq k' with
      | true => rfl
      | false => simpa using ih

/-- The counter of `k`. -/
def counter (m : List (Expr V R × Nat)) (k : Expr V R) : Nat := (mapFind m k).getD 0

theorem counter_set (m : List (Expr V R × Nat)) (k : Expr V R) (v : Nat) (k' : Expr V R) :
    counter (mapSet m k v) k' = if k.beq k' then v else counter m k' := by
  unfold counter
  rw [mapFind_mapSet]
  split_ifs <;> rfl

theorem counter_beq (m : List (Expr V R × Nat)) {k k' : Expr V R} (h : k.beq k' = true) :
    counter m k = counter m k' := by
  unfold counter mapFind
  congr 2
  congr 1
  funext e
  exact beq_right h _

theorem timesIn_beq {k k' : Expr V R} (h : k.beq k' = true) (l : List (Expr V R)) : timesIn k l = timesIn k' l := by
  unfold timesIn
  congr 1
  funext e
  exact beq_right h _

theorem timesIn_append (k : Expr V R) (l l' : List (Expr V R)) : timesIn k (l ++ l') = timesIn k l + timesIn k l' :=
  List.countP_append

theorem timesIn_cons (k e : Expr V R) (l : List (Expr V R)) :
    timesIn k (e :: l) = timesIn k l + if e.beq k then 1 else 0 := List.countP_cons

theorem counter_inc (m : List (Expr V R × Nat)) (k k' : Expr V R) (h : counter m k' + 1 < 2 ^ 64) :
    counter (countInc m k) k' = counter m k' + if k.beq k' then 1 else 0 := by
  rw [countInc, counter_set]
  split_ifs with hb
  · have : (mapFind m k).getD 0 = counter m k' := counter_beq m hb
    rw [this, Nat.mod_eq_of_lt h]
  · rfl

/-- `subexpression_counter` counts. -/
theorem counter_countSub : ∀ (e : Expr V R) (m : List (Expr V R × Nat)) (k : Expr V R), k.Worth →
    counter m k + e.subexprs.length < 2 ^ 64 → counter (countSub e m) k = counter m k + timesIn k e.subexprs
  | .term t, m, k, hk, h => by
    simp only [countSub, subexprs, timesIn_cons]
    simp only [subexprs, List.length_singleton] at h
    by_cases ht : t.vars.length > 2
    · rw [if_pos ht, counter_inc m _ k h]
      simp [timesIn]
    · rw [if_neg ht]
      have : (Expr.term t : Expr V R).beq k = false := by
        rw [Bool.eq_false_iff]
        intro hb
        exact ht (worth_beq hb hk)
      simp [this, timesIn]
  | .pow e p, m, k, hk, h => by
    simp only [subexprs, List.length_cons] at h
    have h1 := counter_inc m (.pow e p) k (by omega)
    have h2 : (if (Expr.pow e p).beq k then 1 else 0) ≤ 1 := by split_ifs <;> omega
    simp only [countSub, subexprs, timesIn_cons]
    rw [counter_countSub e _ k hk (by omega), h1]
    omega
  | .bin o l r, m, k, hk, h => by
    simp only [subexprs, List.length_cons, List.length_append] at h
    have h1 := counter_inc m (.bin o l r) k (by omega)
    have h2 : (if (Expr.bin o l r).beq k then 1 else 0) ≤ 1 := by split_ifs <;> omega
    have h3 : timesIn k l.subexprs ≤ l.subexprs.length := List.countP_le_length
    simp only [countSub, subexprs, timesIn_cons, timesIn_append]
    have h4 := counter_countSub l (countInc m (.bin o l r)) k hk (by omega)
    rw [counter_countSub r _ k hk (by omega), h4, h1]
    omega

/-- The log is of subexpressions. -/
theorem nodes_log (get : V → R) : ∀ (e : Expr V R) (s : CacheState V R), ∀ k ∈ (evalCachedLog get e s).2, k ∈ e.subexprs
  | .term t, s, k, hk => by
    simp only [evalCachedLog] at hk
    split at hk
    · simp at hk
    · split at hk
      · simp at hk
      · simpa [subexprs] using hk
  | .pow e p, s, k, hk => by
    simp only [evalCachedLog] at hk
    split at hk
    · simp at hk
    · rcases List.mem_append.1 hk with hk | hk
      · exact List.mem_cons_of_mem _ (nodes_log get e s k hk)
      · rw [List.mem_singleton.1 hk]; exact List.mem_cons_self
  | .bin o l r, s, k, hk => by
    simp only [evalCachedLog] at hk
    split at hk
    · simp at hk
    · rcases List.mem_append.1 hk with hk | hk
      · rcases List.mem_append.1 hk with hk | hk
        · exact List.mem_cons_of_mem _ (List.mem_append_left _ (nodes_log get l s k hk))
        · exact List.mem_cons_of_mem _ (List.mem_append_right _ (nodes_log get r _ k hk))
      · rw [List.mem_singleton.1 hk]; exact List.mem_cons_self

/-- It is the cached evaluator. -/
theorem evalCachedLog_eq (get : V → R) : ∀ (e : Expr V R) (s : CacheState V R),
    (evalCachedLog get e s).1 = evalCached get e s
  | .term t, s => by
    simp only [evalCachedLog, evalCached]
    split
    · rfl
    · generalize (if t.vars.length > 2 then mapFind s.cache (.term t) else none) = x
      cases x <;> rfl
  | .pow e p, s => by
    simp only [evalCachedLog, evalCached]
    generalize mapFind s.cache (.pow e p) = x
    cases x
    · simp only [evalCachedLog_eq get e s]
    · rfl
  | .bin o l r, s => by
    simp only [evalCachedLog, evalCached]
    generalize mapFind s.cache (.bin o l r) = x
    cases x
    · simp only [evalCachedLog_eq get l s, evalCachedLog_eq get r]
      cases o <;> rfl
    · rfl

/-- The log is a part of the subexpressions. -/
theorem log_subperm (get : V → R) : ∀ (e : Expr V R) (s : CacheState V R),
    List.Subperm (evalCachedLog get e s).2 e.subexprs
  | .term t, s => by
    simp only [evalCachedLog]
    split
    · exact List.nil_subperm
    · split
      · exact List.nil_subperm
      · exact List.Subperm.refl _
  | .pow e p, s => by
    simp only [evalCachedLog]
    split
    · exact List.nil_subperm
    · refine (List.perm_append_comm.subperm).trans ?_
      exact (List.subperm_append_left [.pow e p]).2 (log_subperm get e s)
  | .bin o l r, s => by
    simp only [evalCachedLog]
    split
    · exact List.nil_subperm
    · refine (List.perm_append_comm.subperm).trans ?_
      exact (List.subperm_append_left [.bin o l r]).2 ((log_subperm get l s).append (log_subperm get r _))

/-- The invariant: `b k` more visits of `k` are to come, `log` has been computed, `n k` is the number of all visits
and `c` is the cache in the beginning. -/
structure Budget (n : Expr V R → Nat) (c : List (Expr V R × R)) (s : CacheState V R) (b : Expr V R → Nat)
    (log : List (Expr V R)) : Prop where
  once : ∀ k : Expr V R, k.Worth → timesIn k log ≤ 1
  small : ∀ k : Expr V R, k.Worth → counter s.counts k < 2 ^ 64
  enough : ∀ k : Expr V R, k.Worth → (mapFind s.cache k ≠ none ∨ timesIn k log = 0) → b k ≤ counter s.counts k
  spent : ∀ k : Expr V R, k.Worth → mapFind s.cache k = none → timesIn k log ≠ 0 → b k = 0
  total : ∀ k : Expr V R, counter s.counts k ≤ n k
  repeated : ∀ k : Expr V R, mapFind s.cache k ≠ none → 2 ≤ n k ∨ mapFind c k ≠ none

variable {n : Expr V R → Nat} {c : List (Expr V R × R)} {s : CacheState V R} {b b' : Expr V R → Nat}
  {log : List (Expr V R)}

theorem Budget.mono (h : Budget n c s b log) (hb : ∀ k, k.Worth → b' k ≤ b k) : Budget n c s b' log where
  once := h.once
  small := h.small
  enough := fun k hk h' => (hb k hk).trans (h.enough k hk h')
  spent := fun k hk h' h'' => by have := h.spent k hk h' h''; have := hb k hk; omega
  total := h.total
  repeated := h.repeated

theorem mapFind_beq {T : Type*} (m : List (Expr V R × T)) {k k' : Expr V R} (h : k.beq k' = true) :
    mapFind m k = mapFind m k' := by
  unfold mapFind
  congr 2
  funext e
  exact beq_right h _

theorem mapFind_erase_ne {T : Type*} (m : List (Expr V R × T)) (k k' : Expr V R)
    (h : mapFind (mapErase m k) k' ≠ none) : mapFind m k' ≠ none := by
  cases hb : k.beq k' with
  | false => rwa [mapFind_mapErase m hb] at h
  | true =>
    intro h'
    apply h
    rw [← mapFind_beq _ hb] at h' ⊢
    clear h
    induction m with
    | nil => rfl
    | cons a m ih =>
      obtain ⟨a, w⟩ := a
      simp only [mapErase]
      simp only [mapFind, List.find?_cons] at h' ih ⊢
      cases ha : a.beq k with
      | true => rw [ha] at h'; simp at h'
      | false =>
        rw [ha] at h'
        simp only [Bool.false_eq_true, if_false, List.find?_cons, ha]
        exact ih h'

/-- A visit that finds the value. -/
theorem Budget.hit (h : Budget n c s b log) {k : Expr V R} (hw : k.Worth) {v : R} (hk : mapFind s.cache k = some v)
    (hb : ∀ k', k'.Worth → b' k' + (if k.beq k' then 1 else 0) ≤ b k') :
    Budget n c (cacheHit k v s).2 b' log := by
  have hpos : 1 ≤ counter s.counts k := by
    have h1 := hb k hw
    rw [if_pos (beq_refl' k)] at h1
    have := h.enough k hw (Or.inl (by rw [hk]; simp))
    omega
  have hsm := h.small k hw
  have hval : ((mapFind s.counts k).getD 0 + (2 ^ 64 - 1)) % 2 ^ 64 = counter s.counts k - 1 := by
    change (counter s.counts k + (2 ^ 64 - 1)) % 2 ^ 64 = _
    have : counter s.counts k + (2 ^ 64 - 1) = counter s.counts k - 1 + 2 ^ 64 := by omega
    rw [this, Nat.add_mod_right, Nat.mod_eq_of_lt (by omega)]
  have hcache : ∀ k', mapFind (if counter s.counts k - 1 = 0 then mapErase s.cache k else s.cache) k' ≠ none →
      mapFind s.cache k' ≠ none := by
    intro k' hk'
    split_ifs at hk' with h0
    · exact mapFind_erase_ne _ _ _ hk'
    · exact hk'
  have hcount : ∀ k', k.beq k' = true → counter s.counts k = counter s.counts k' := fun k' => counter_beq _
  simp only [cacheHit, hval]
  refine ⟨h.once, ?_, ?_, ?_, ?_, fun k' hk' => h.repeated k' (hcache k' hk')⟩
  · intro k' hw'
    simp only [counter_set]
    have := h.small k' hw'
    split_ifs <;> omega
  · intro k' hw' hor
    have h1 := hb k' hw'
    simp only [counter_set]
    cases hkk : k.beq k' with
    | true =>
      have h2 := h.enough k' hw' (Or.inl (by rw [← mapFind_beq _ hkk, hk]; simp))
      rw [hkk] at h1
      have := hcount k' hkk
      simp only [if_true] at h1 ⊢
      omega
    | false =>
      rw [hkk] at h1
      have h2 := h.enough k' hw' (hor.imp_left (hcache k'))
      simp only [Bool.false_eq_true, if_false] at h1 ⊢
      omega
  · intro k' hw' hnone htimes
    have h1 := hb k' hw'
    cases hkk : k.beq k' with
    | true =>
      have h2 := h.enough k' hw' (Or.inl (by rw [← mapFind_beq _ hkk, hk]; simp))
      rw [hkk] at h1
      have := hcount k' hkk
      simp only [if_true] at h1
      by_cases h0 : counter s.counts k - 1 = 0
      · omega
      · rw [if_neg h0, ← mapFind_beq _ hkk, hk] at hnone
        cases hnone
    | false =>
      rw [hkk] at h1
      have : mapFind s.cache k' = none := by
        split_ifs at hnone
        · rwa [mapFind_mapErase _ hkk] at hnone
        · exact hnone
      have := h.spent k' hw' this htimes
      omega
  · intro k'
    have := h.total k'
    simp only [counter_set]
    cases hkk : k.beq k' with
    | true =>
      have := hcount k' hkk
      simp only [if_true]
      omega
    | false => simpa using this

/-- The end of a visit that computes the value. -/
theorem Budget.store (h : Budget n c s b log) {k : Expr V R} {v : R} (hk : k.Worth → timesIn k log = 0)
    (hb : ∀ k', k'.Worth → b' k' + (if k.beq k' then 1 else 0) ≤ b k') :
    Budget n c (cacheStore k v s).2 b' (log ++ [k]) := by
  have htimes : ∀ k', timesIn k' (log ++ [k]) = timesIn k' log + if k.beq k' then 1 else 0 := by
    intro k'
    rw [timesIn_append, timesIn_cons]
    simp [timesIn]
  have hcnt : ∀ k', counter (mapSet s.counts k (counter s.counts k)) k' = counter s.counts k' := by
    intro k'
    rw [counter_set]
    split_ifs with hkk
    · exact counter_beq _ hkk
    · rfl
  have hfind : ∀ k', k.beq k' = false →
      mapFind (if counter s.counts k > 1 then mapSet s.cache k v else s.cache) k' = mapFind s.cache k' := by
    intro k' hkk
    split_ifs
    · rw [mapFind_mapSet, hkk]; rfl
    · rfl
  have h0 : ∀ k', k'.Worth → k.beq k' = true → timesIn k' log = 0 := fun k' hw' hkk => by
    rw [← timesIn_beq hkk]; exact hk (worth_beq hkk hw')
  change Budget n c ⟨mapSet s.counts k (counter s.counts k),
    if counter s.counts k > 1 then mapSet s.cache k v else s.cache⟩ b' (log ++ [k])
  refine ⟨?_, ?_, ?_, ?_, ?_, ?_⟩
  · intro k' hw'
    rw [htimes]
    cases hkk : k.beq k' with
    | true => rw [h0 k' hw' hkk]; simp
    | false => simpa using h.once k' hw'
  · intro k' hw'
    simp only [hcnt]
    exact h.small k' hw'
  · intro k' hw' hor
    have h1 := hb k' hw'
    simp only [hcnt]
    cases hkk : k.beq k' with
    | true =>
      have := h.enough k' hw' (Or.inr (h0 k' hw' hkk))
      rw [hkk] at h1
      simp only [if_true] at h1
      omega
    | false =>
      rw [htimes, hkk] at hor
      simp only [hfind k' hkk] at hor
      have := h.enough k' hw' (by simpa using hor)
      omega
  · intro k' hw' hnone ht
    have h1 := hb k' hw'
    cases hkk : k.beq k' with
    | true =>
      have h2 := h.enough k' hw' (Or.inr (h0 k' hw' hkk))
      rw [hkk] at h1
      simp only [if_true] at h1
      have h3 := counter_beq s.counts hkk
      by_cases hc : counter s.counts k > 1
      · simp only [if_pos hc] at hnone
        rw [mapFind_mapSet, hkk] at hnone
        cases hnone
      · omega
    | false =>
      rw [htimes, hkk] at ht
      simp only [hfind k' hkk] at hnone
      have := h.spent k' hw' hnone (by simpa using ht)
      omega
  · intro k'
    simp only [hcnt]
    exact h.total k'
  · intro k' hk'
    cases hkk : k.beq k' with
    | true =>
      have h3 := counter_beq s.counts hkk
      by_cases hc : counter s.counts k > 1
      · left
        have := h.total k'
        omega
      · simp only [if_neg hc] at hk'
        exact h.repeated k' hk'
    | false =>
      simp only [hfind k' hkk] at hk'
      exact h.repeated k' hk'

theorem timesIn_log_zero (get : V → R) {k : Expr V R} (e : Expr V R) (s : CacheState V R) (h : e.nodes < k.nodes) :
    timesIn k (evalCachedLog get e s).2 = 0 := by
  unfold timesIn
  rw [List.countP_eq_zero]
  intro f hf hb
  have h1 := nodes_subexprs e f (nodes_log get e s f hf)
  have h2 := nodes_beq hb
  omega

theorem Budget.fresh (h : Budget n c s b log) {k : Expr V R} (hw : k.Worth) (hk : mapFind s.cache k = none)
    (hb : 0 < b k) : timesIn k log = 0 := by
  by_contra h'
  have := h.spent k hw hk h'
  omega

/-- The invariant is kept by evaluations. -/
theorem Budget.eval (get : V → R) : ∀ (e : Expr V R) (s : CacheState V R) (b : Expr V R → Nat)
    (log : List (Expr V R)), Budget n c s b log → (∀ k, k.Worth → timesIn k e.subexprs ≤ b k) →
    Budget n c (evalCachedLog get e s).1.2 (fun k => b k - timesIn k e.subexprs) (log ++ (evalCachedLog get e s).2)
  | .term t, s, b, log, h, hb => by
    have hone : ∀ k : Expr V R, timesIn k (Expr.term t : Expr V R).subexprs = if (Expr.term t).beq k then 1 else 0 := by
      intro k
      simp [subexprs, timesIn_cons, timesIn]
    have hb' : ∀ k', k'.Worth → (b k' - timesIn k' (Expr.term t : Expr V R).subexprs) +
        (if (Expr.term t).beq k' then 1 else 0) ≤ b k' := by
      intro k' hw'
      have h1 := hb k' hw'
      rw [hone] at h1 ⊢
      omega
    simp only [evalCachedLog]
    split
    · simpa using h.mono fun k _ => Nat.sub_le _ _
    · by_cases ht : t.vars.length > 2
      · simp only [if_pos ht]
        cases hf : mapFind s.cache (.term t) with
        | some v => simpa using h.hit (k := .term t) (show (Expr.term t : Expr V R).Worth from ht) hf hb'
        | none =>
          refine h.store (fun hw => h.fresh hw hf ?_) hb'
          have h1 := hb _ hw
          rw [hone, if_pos (beq_refl' _)] at h1
          exact h1
      · simp only [if_neg ht]
        exact h.store (fun hw => absurd hw ht) hb'
  | .pow e p, s, b, log, h, hb => by
    have hone : ∀ k : Expr V R, timesIn k (Expr.pow e p).subexprs =
        timesIn k e.subexprs + if (Expr.pow e p).beq k then 1 else 0 := fun k => timesIn_cons _ _ _
    simp only [evalCachedLog]
    cases hf : mapFind s.cache (.pow e p) with
    | some v =>
      have := h.hit (b' := fun k => b k - timesIn k (Expr.pow e p).subexprs) (k := .pow e p) trivial hf (by
        intro k' hw'
        have h1 := hb k' hw'
        rw [hone] at h1 ⊢
        omega)
      simpa using this
    | none =>
      have hfresh : timesIn (Expr.pow e p) log = 0 := h.fresh trivial hf (by
        have h1 := hb (.pow e p) trivial
        rw [hone, if_pos (beq_refl' _)] at h1
        omega)
      have h1 := Budget.eval get e s b log h (fun k hk => by
        have := hb k hk
        rw [hone] at this
        omega)
      rw [← List.append_assoc]
      refine h1.store (fun _ => ?_) ?_
      · rw [timesIn_append, hfresh, timesIn_log_zero get e s (by simp [nodes])]
      · intro k' hw'
        have := hb k' hw'
        rw [hone] at this ⊢
        omega
  | .bin o l r, s, b, log, h, hb => by
    have hone : ∀ k : Expr V R, timesIn k (Expr.bin o l r).subexprs =
        timesIn k l.subexprs + timesIn k r.subexprs + if (Expr.bin o l r).beq k then 1 else 0 := fun k => by
      simp only [subexprs, timesIn_cons, timesIn_append]
    simp only [evalCachedLog]
    cases hf : mapFind s.cache (.bin o l r) with
    | some v =>
      have := h.hit (b' := fun k => b k - timesIn k (Expr.bin o l r).subexprs) (k := .bin o l r) trivial hf (by
        intro k' hw'
        have h1 := hb k' hw'
        rw [hone] at h1 ⊢
        omega)
      simpa using this
    | none =>
      have hfresh : timesIn (Expr.bin o l r) log = 0 := h.fresh trivial hf (by
        have h1 := hb (.bin o l r) trivial
        rw [hone, if_pos (beq_refl' _)] at h1
        omega)
      have h1 := Budget.eval get l s b log h (fun k hk => by
        have := hb k hk
        rw [hone] at this
        omega)
      have h2 := Budget.eval get r _ _ _ h1 (fun k hk => by
        have := hb k hk
        rw [hone] at this
        omega)
      rw [← List.append_assoc, ← List.append_assoc]
      refine h2.store (fun _ => ?_) ?_
      · rw [timesIn_append, timesIn_append, hfresh, timesIn_log_zero get l s (by simp only [nodes]; omega),
          timesIn_log_zero get r _ (by simp only [nodes]; omega)]
      · intro k' hw'
        have := hb k' hw'
        rw [hone] at this ⊢
        omega

/-- Only the terms of at most two variables are not counted. -/
theorem counter_not_worth : ∀ (e : Expr V R) (m : List (Expr V R × Nat)) (k : Expr V R), ¬ k.Worth →
    counter (countSub e m) k = counter m k
  | .term t, m, k, hk => by
    simp only [countSub]
    split
    · next ht =>
      rw [countInc, counter_set, if_neg]
      intro hb
      exact hk (worth_beq (beq_symm' hb) ht)
    · rfl
  | .pow e p, m, k, hk => by
    simp only [countSub]
    rw [counter_not_worth e _ k hk, countInc, counter_set, if_neg]
    intro hb
    exact hk (worth_beq (beq_symm' hb) trivial)
  | .bin o l r, m, k, hk => by
    simp only [countSub]
    rw [counter_not_worth r _ k hk, counter_not_worth l _ k hk, countInc, counter_set, if_neg]
    intro hb
    exact hk (worth_beq (beq_symm' hb) trivial)

/-- No two keys are equal. -/
def Keys {T : Type*} (m : List (Expr V R × T)) : Prop := m.Pairwise fun x y => x.1.beq y.1 = false

theorem mem_mapSet {T : Type*} {m : List (Expr V R × T)} {k : Expr V R} {v : T} {x : Expr V R × T}
    (h : x ∈ mapSet m k v) : (∃ y ∈ m, y.1 = x.1) ∨ x.1 = k := by
  induction m with
  | nil => simp only [mapSet, List.mem_singleton] at h; exact Or.inr (by rw [h])
  | cons a m ih =>
    obtain ⟨a, w⟩ := a
    simp only [mapSet] at h
    split_ifs at h
    · rcases List.mem_cons.1 h with rfl | h
      · exact Or.inl ⟨_, List.mem_cons_self, rfl⟩
      · exact Or.inl ⟨x, List.mem_cons_of_mem _ h, rfl⟩
    · rcases List.mem_cons.1 h with rfl | h
      · exact Or.inl ⟨_, List.mem_cons_self, rfl⟩
      · rcases ih h with ⟨y, hy, hy'⟩ | h
        · exact Or.inl ⟨y, List.mem_cons_of_mem _ hy, hy'⟩
        · exact Or.inr h

theorem Keys.set {T : Type*} {m : List (Expr V R × T)} (h : Keys m) (k : Expr V R) (v : T) : Keys (mapSet m k v) := by
  induction m with
  | nil => simp [Keys, mapSet]
  | cons a m ih =>
    obtain ⟨a, w⟩ := a
    obtain ⟨h1, h2⟩ := List.pairwise_cons.1 h
    simp only [mapSet]
    split_ifs with ha
    · exact List.pairwise_cons.2 ⟨h1, h2⟩
    · refine List.pairwise_cons.2 ⟨fun x hx => ?_, ih h2⟩
      rcases mem_mapSet hx with ⟨y, hy, hy'⟩ | hx
      · rw [← hy']; exact h1 y hy
      · rw [hx]; simpa using ha

theorem Keys.erase {T : Type*} {m : List (Expr V R × T)} (h : Keys m) (k : Expr V R) :
    Keys (mapErase m k) ∧ mapFind (mapErase m k) k = none := by
  induction m with
  | nil => exact ⟨List.Pairwise.nil, rfl⟩
  | cons a m ih =>
    obtain ⟨a, w⟩ := a
    obtain ⟨h1, h2⟩ := List.pairwise_cons.1 h
    simp only [mapErase]
    split_ifs with ha
    · refine ⟨h2, ?_⟩
      simp only [mapFind, Option.map_eq_none_iff, List.find?_eq_none]
      intro x hx hb
      have := h1 x hx
      rw [beq_trans' ha (beq_symm' hb)] at this
      cases this
    · obtain ⟨h3, h4⟩ := ih h2
      refine ⟨List.pairwise_cons.2 ⟨fun x hx => h1 x ?_, h3⟩, ?_⟩
      · clear h1 h2 h3 h4 ih h
        induction m with
        | nil => simp [mapErase] at hx
        | cons b m ih =>
          obtain ⟨b, u⟩ := b
          simp only [mapErase] at hx
          split_ifs at hx
          · exact List.mem_cons_of_mem _ hx
          · rcases List.mem_cons.1 hx with rfl | hx
            · exact List.mem_cons_self
            · exact List.mem_cons_of_mem _ (ih hx)
      · simp only [mapFind, List.find?_cons] at h4 ⊢
        rw [show a.beq k = false by simpa using ha]
        exact h4

/-- What is in the cache is still to be used. -/
def Useful (s : CacheState V R) : Prop :=
  Keys s.cache ∧ ∀ k : Expr V R, mapFind s.cache k ≠ none → 0 < counter s.counts k

theorem Useful.hit {s : CacheState V R} (h : Useful s) (k : Expr V R) (v : R) : Useful (cacheHit k v s).2 := by
  obtain ⟨h1, h2⟩ := h
  simp only [cacheHit]
  generalize ((mapFind s.counts k).getD 0 + (2 ^ 64 - 1)) % 2 ^ 64 = x
  by_cases hx : x = 0
  · simp only [if_pos hx]
    refine ⟨(h1.erase k).1, fun k' hk' => ?_⟩
    cases hkk : k.beq k' with
    | true =>
      exfalso
      apply hk'
      rw [← mapFind_beq _ hkk]
      exact (h1.erase k).2
    | false =>
      simp only [counter_set, hkk, Bool.false_eq_true, if_false]
      exact h2 k' (mapFind_erase_ne _ _ _ hk')
  · simp only [if_neg hx]
    refine ⟨h1, fun k' hk' => ?_⟩
    simp only [counter_set]
    split_ifs
    · omega
    · exact h2 k' hk'

theorem Useful.store {s : CacheState V R} (h : Useful s) (k : Expr V R) (v : R) : Useful (cacheStore k v s).2 := by
  obtain ⟨h1, h2⟩ := h
  change Useful ⟨mapSet s.counts k (counter s.counts k),
    if counter s.counts k > 1 then mapSet s.cache k v else s.cache⟩
  have hcnt : ∀ k', counter (mapSet s.counts k (counter s.counts k)) k' = counter s.counts k' := by
    intro k'
    rw [counter_set]
    split_ifs with hkk
    · exact counter_beq _ hkk
    · rfl
  split_ifs with hc
  · refine ⟨h1.set k v, fun k' hk' => ?_⟩
    simp only [hcnt]
    simp only [mapFind_mapSet] at hk'
    cases hkk : k.beq k' with
    | true => rw [← counter_beq _ hkk]; omega
    | false => rw [hkk] at hk'; exact h2 k' (by simpa using hk')
  · exact ⟨h1, fun k' hk' => by simp only [hcnt]; exact h2 k' hk'⟩

theorem Useful.eval (get : V → R) : ∀ (e : Expr V R) (s : CacheState V R), Useful s → Useful (evalCached get e s).2
  | .term t, s, h => by
    simp only [evalCached]
    split
    · exact h
    · split
      · exact h.hit _ _
      · exact h.store _ _
  | .pow e p, s, h => by
    simp only [evalCached]
    split
    · exact h.hit _ _
    · exact (Useful.eval get e s h).store _ _
  | .bin o l r, s, h => by
    simp only [evalCached]
    split
    · exact h.hit _ _
    · exact (Useful.eval get r _ (Useful.eval get l s h)).store _ _

/-- The state in which `evaluate` begins. -/
theorem Budget.start (e : Expr V R) (he : e.subexprs.length < 2 ^ 64) (c : List (Expr V R × R)) :
    Budget (fun k => counter (countSub e []) k) c ⟨countSub e [], c⟩ (fun k => timesIn k e.subexprs) [] := by
  have h : ∀ k : Expr V R, k.Worth → counter (countSub e []) k = timesIn k e.subexprs := by
    intro k hk
    have := counter_countSub e [] k hk (by simpa [counter, mapFind] using he)
    simpa [counter, mapFind] using this
  refine ⟨fun k _ => by simp [timesIn], fun k hk => ?_, fun k hk _ => (h k hk).ge, fun k _ _ h' => ?_, fun k => le_rfl,
    fun k hk => Or.inr hk⟩
  · rw [h k hk]
    exact lt_of_le_of_lt List.countP_le_length he
  · exact absurd rfl h'

end Expr

end Crypto3Zk
