import Verif.Model.CountMap
import Mathlib.Data.List.Basic
import Mathlib.Data.List.Count
import Mathlib.Algebra.BigOperators.Group.List.Basic
import Mathlib.Tactic.Linarith
import Mathlib.Tactic.Ring

/-! Helper lemmas for the counting-map comparison. -/

namespace Crypto3Zk.CountMap

variable {K : Type*} {eq : K → K → Bool}

/-- a Boolean relation that is an equivalence -/
structure IsEquivB (eq : K → K → Bool) : Prop where
  refl : ∀ a, eq a a = true
  symm : ∀ a b, eq a b = true → eq b a = true
  trans : ∀ a b c, eq a b = true → eq b c = true → eq a c = true

theorem IsEquivB.congr (h : IsEquivB eq) {a b : K} (hab : eq a b = true) (c : K) :
    eq a c = eq b c := by
  cases h1 : eq a c <;> cases h2 : eq b c <;> simp_all
  · have := h.trans _ _ _ hab h2; simp_all
  · have := h.trans _ _ _ (h.symm _ _ hab) h1; simp_all

/-- total of the entries whose key equals `k` -/
def cnt (eq : K → K → Bool) (m : List (K × Int)) (k : K) : Int :=
  (m.map fun e => if eq e.1 k then e.2 else 0).sum

def DistinctKeys (eq : K → K → Bool) (ks : List K) : Prop := ks.Pairwise fun a b => eq a b = false

theorem cnt_inc (h : IsEquivB eq) (m : List (K × Int)) (x k : K) :
    cnt eq (inc eq m x) k = cnt eq m k + if eq x k then 1 else 0 := by
  induction m with
  | nil => simp [inc, cnt]
  | cons e m ih =>
    obtain ⟨k', n⟩ := e
    simp only [inc]
    by_cases he : eq k' x = true
    · simp only [he, if_true]
      simp only [cnt, List.map_cons, List.sum_cons]
      rw [h.congr he k]
      split <;> ring
    · simp only [he, if_false]
      simp only [cnt, List.map_cons, List.sum_cons] at ih ⊢
      simp only [Bool.false_eq_true, if_false, List.map_cons, List.sum_cons]
      rw [ih]; ring

theorem sum_inc (m : List (K × Int)) (x : K) :
    ((inc eq m x).map Prod.snd).sum = (m.map Prod.snd).sum + 1 := by
  induction m with
  | nil => simp [inc]
  | cons e m ih =>
    obtain ⟨k', n⟩ := e
    simp only [inc]
    by_cases he : eq k' x = true
    · simp [he]; ring
    · simp [he, ih]; ring

theorem mem_keys_inc (h : IsEquivB eq) (m : List (K × Int)) (x k : K) :
    (∃ e ∈ inc eq m x, eq e.1 k = true) ↔ (∃ e ∈ m, eq e.1 k = true) ∨ eq x k = true := by
  induction m with
  | nil => simp [inc]
  | cons e m ih =>
    obtain ⟨k', n⟩ := e
    simp only [inc]
    by_cases he : eq k' x = true
    · simp only [he, if_true]
      have := h.congr he k
      simp only [List.mem_cons, exists_eq_or_imp]
      grind
    · simp only [he]
      simp only [Bool.false_eq_true, if_false, List.mem_cons, exists_eq_or_imp]
      rw [ih]; grind

theorem distinct_inc (h : IsEquivB eq) (m : List (K × Int)) (x : K)
    (hd : DistinctKeys eq (m.map Prod.fst)) : DistinctKeys eq ((inc eq m x).map Prod.fst) := by
  induction m with
  | nil => simp [inc, DistinctKeys]
  | cons e m ih =>
    obtain ⟨k', n⟩ := e
    simp only [DistinctKeys, List.map_cons, List.pairwise_cons] at hd
    simp only [inc]
    by_cases he : eq k' x = true
    · simpa [he, DistinctKeys] using hd
    · simp only [he]
      simp only [Bool.false_eq_true, if_false, List.map_cons, DistinctKeys, List.pairwise_cons]
      refine ⟨?_, ih hd.2⟩
      intro b hb
      obtain ⟨e, he1, rfl⟩ := List.mem_map.1 hb
      by_contra hc
      have hc' : eq k' e.1 = true := by simpa using hc
      have : ∃ e' ∈ inc eq m x, eq e'.1 k' = true := ⟨e, he1, h.symm _ _ hc'⟩
      rw [mem_keys_inc h] at this
      rcases this with ⟨e', he', h'⟩ | h'
      · have := hd.1 e'.1 (List.mem_map_of_mem he')
        have := h.symm _ _ h'
        simp_all
      · have := h.symm _ _ h'
        simp_all

theorem build_spec (h : IsEquivB eq) (xs : List K) (m : List (K × Int))
    (hd : DistinctKeys eq (m.map Prod.fst)) :
    (∀ k, cnt eq (xs.foldl (inc eq) m) k = cnt eq m k + (xs.countP fun x => eq x k)) ∧
    (((xs.foldl (inc eq) m).map Prod.snd).sum = (m.map Prod.snd).sum + xs.length) ∧
    (∀ k, (∃ e ∈ xs.foldl (inc eq) m, eq e.1 k = true) ↔
      (∃ e ∈ m, eq e.1 k = true) ∨ ∃ x ∈ xs, eq x k = true) ∧
    DistinctKeys eq ((xs.foldl (inc eq) m).map Prod.fst) := by
  induction xs generalizing m with
  | nil => simp [hd]
  | cons x xs ih =>
    obtain ⟨h1, h2, h3, h4⟩ := ih (inc eq m x) (distinct_inc h m x hd)
    simp only [List.foldl_cons]
    refine ⟨?_, ?_, ?_, h4⟩
    · intro k
      rw [h1, cnt_inc h, List.countP_cons]
      push_cast
      split <;> ring
    · rw [h2, sum_inc]; push_cast [List.length_cons]; ring
    · intro k
      rw [h3, mem_keys_inc h]
      simp only [List.mem_cons, exists_eq_or_imp]
      rw [or_assoc]

theorem dec_none (m : List (K × Int)) (x : K) :
    dec eq m x = none ↔ ∀ e ∈ m, eq e.1 x = false := by
  induction m with
  | nil => simp [dec]
  | cons e m ih =>
    obtain ⟨k', n⟩ := e
    simp only [dec]
    by_cases he : eq k' x = true
    · simp [he]
    · simp only [he]
      simp [ih, he]

theorem dec_some (h : IsEquivB eq) (m m' : List (K × Int)) (x : K) (hm : dec eq m x = some m') :
    (∀ k, cnt eq m' k = cnt eq m k - if eq x k then 1 else 0) ∧
    ((m'.map Prod.snd).sum = (m.map Prod.snd).sum - 1) ∧
    m'.map Prod.fst = m.map Prod.fst := by
  induction m generalizing m' with
  | nil => simp [dec] at hm
  | cons e m ih =>
    obtain ⟨k', n⟩ := e
    simp only [dec] at hm
    by_cases he : eq k' x = true
    · simp only [he, if_true, Option.some.injEq] at hm
      subst hm
      refine ⟨?_, ?_, by simp⟩
      · intro k
        simp only [cnt, List.map_cons, List.sum_cons]
        rw [h.congr he k]
        split <;> ring
      · simp; ring
    · simp only [he] at hm
      simp only [Bool.false_eq_true, if_false, Option.map_eq_some_iff] at hm
      obtain ⟨m'', hm'', rfl⟩ := hm
      obtain ⟨h1, h2, h3⟩ := ih _ hm''
      refine ⟨?_, ?_, by simp [h3]⟩
      · intro k
        have := h1 k
        simp only [cnt, List.map_cons, List.sum_cons] at this ⊢
        rw [this]; ring
      · simp [h2]; ring

theorem decs_some (h : IsEquivB eq) (ys : List K) (m m' : List (K × Int))
    (hm : ys.foldlM (dec eq) m = some m') :
    (∀ k, cnt eq m' k = cnt eq m k - (ys.countP fun x => eq x k)) ∧
    ((m'.map Prod.snd).sum = (m.map Prod.snd).sum - ys.length) ∧
    m'.map Prod.fst = m.map Prod.fst := by
  induction ys generalizing m with
  | nil => simp at hm; subst hm; simp
  | cons y ys ih =>
    simp only [List.foldlM_cons, Option.bind_eq_bind, Option.bind_eq_some_iff] at hm
    obtain ⟨m1, hm1, hm2⟩ := hm
    obtain ⟨a1, a2, a3⟩ := dec_some h _ _ _ hm1
    obtain ⟨b1, b2, b3⟩ := ih _ hm2
    refine ⟨?_, ?_, by rw [b3, a3]⟩
    · intro k
      rw [b1, a1, List.countP_cons]
      push_cast
      split <;> ring
    · rw [b2, a2]; push_cast [List.length_cons]; ring

theorem decs_defined (h : IsEquivB eq) (ys : List K) (m : List (K × Int))
    (hk : ∀ y ∈ ys, ∃ k ∈ m.map Prod.fst, eq k y = true) :
    ∃ m', ys.foldlM (dec eq) m = some m' := by
  induction ys generalizing m with
  | nil => exact ⟨m, by simp⟩
  | cons y ys ih =>
    cases hd : dec eq m y with
    | none =>
      rw [dec_none] at hd
      obtain ⟨k, hk1, hk2⟩ := hk y (by simp)
      obtain ⟨e, he, rfl⟩ := List.mem_map.1 hk1
      have := hd e he
      simp_all
    | some m1 =>
      obtain ⟨_, _, a3⟩ := dec_some h _ _ _ hd
      obtain ⟨m', hm'⟩ := ih m1 (by rw [a3]; intro y' hy'; exact hk y' (by simp [hy']))
      exact ⟨m', by simp [hd, hm']⟩

theorem cnt_eq_of_mem (h : IsEquivB eq) (m : List (K × Int)) (e : K × Int) (he : e ∈ m)
    (hd : DistinctKeys eq (m.map Prod.fst)) : cnt eq m e.1 = e.2 := by
  induction m with
  | nil => simp at he
  | cons a m ih =>
    simp only [DistinctKeys, List.map_cons, List.pairwise_cons] at hd
    rcases List.mem_cons.1 he with rfl | he
    · have : (m.map fun e' => if eq e'.1 e.1 then e'.2 else 0).sum = 0 := by
        apply List.sum_eq_zero
        intro v hv
        obtain ⟨e', he', rfl⟩ := List.mem_map.1 hv
        have h1 := hd.1 e'.1 (List.mem_map_of_mem he')
        have h2 : eq e'.1 e.1 = false := by
          by_contra hc
          have := h.symm _ _ (by simpa using hc)
          simp_all
        simp [h2]
      simp [cnt, h.refl, this]
    · have h1 := hd.1 e.1 (List.mem_map_of_mem he)
      have := ih he hd.2
      simp only [cnt, List.map_cons, List.sum_cons, h1] at this ⊢
      simpa using this

theorem eqv_iff (h : IsEquivB eq) (xs ys : List K) :
    eqv eq xs ys = true ↔ ∀ k, (xs.countP fun x => eq x k) = ys.countP fun y => eq y k := by
  obtain ⟨b1, b2, b3, b4⟩ := build_spec h xs [] (by simp [DistinctKeys])
  simp only [List.not_mem_nil, false_and, exists_false, false_or] at b3
  constructor
  · intro he k
    simp only [eqv, sameCounts, build] at he
    split at he
    · simp at he
    · split at he
      · simp at he
      · rename_i m hm
        obtain ⟨a1, _, _⟩ := decs_some h _ _ _ hm
        have hz : cnt eq m k = 0 := by
          apply List.sum_eq_zero
          intro v hv
          obtain ⟨e, he', rfl⟩ := List.mem_map.1 hv
          have := List.all_eq_true.1 he e he'
          simp only [beq_iff_eq] at this
          simp [this]
        have := a1 k
        rw [hz, b1 k] at this
        simp only [cnt, List.map_nil, List.sum_nil] at this
        omega
  · intro hc
    have hkeys : ∀ y ∈ ys, ∃ k ∈ (xs.foldl (inc eq) []).map Prod.fst, eq k y = true := by
      intro y hy
      have h1 : 0 < ys.countP fun z => eq z y := List.countP_pos_iff.2 ⟨y, hy, h.refl y⟩
      rw [← hc y] at h1
      obtain ⟨x, hx, hxy⟩ := List.countP_pos_iff.1 h1
      obtain ⟨e, he, hek⟩ := (b3 y).2 ⟨x, hx, hxy⟩
      exact ⟨e.1, List.mem_map_of_mem he, hek⟩
    obtain ⟨m, hm⟩ := decs_defined h ys _ hkeys
    obtain ⟨a1, a2, a3⟩ := decs_some h _ _ _ hm
    have hz : ∀ e ∈ m, e.2 = 0 := by
      intro e he
      rw [← cnt_eq_of_mem h m e he (by rw [a3]; exact b4), a1, b1, hc]
      simp [cnt]
    have hlen : xs.length = ys.length := by
      have : (m.map Prod.snd).sum = 0 := by
        apply List.sum_eq_zero
        intro v hv
        obtain ⟨e, he', rfl⟩ := List.mem_map.1 hv
        exact hz e he'
      rw [a2, b2] at this
      simp at this
      omega
    simp only [eqv, hlen, sameCounts, build, hm]
    simpa using fun a b hab => hz (a, b) hab

end Crypto3Zk.CountMap
