import Verif.Lemmas.IntegerPermutation

/-! # C13: integer permutations -/

namespace Crypto3Zk

open IntPerm

/-- C13: the validity check accepts exactly the bijections of `[min, max]`. -/
theorem C13_isValid_iff_bijection (p : IntPerm) (hw : p.WF) :
    p.isValid = true ↔ p.IsBijection := valid_iff_bijection p hw

/-- C13: a valid permutation has a valid inverse on the same interval; composing on either side
gives the identity. -/
theorem C13_inverse (p : IntPerm) (hw : p.WF) (hv : p.isValid = true) :
    ∃ q, p.inverse = some q ∧ q.WF ∧ q.isValid = true ∧
      q.minElement = p.minElement ∧ q.maxElement = p.maxElement ∧
      (∀ i, p.InRange i → ∃ v, p.get i = some v ∧ q.get v = some i) ∧
      (∀ v, p.InRange v → ∃ i, q.get v = some i ∧ p.get i = some v) := by
  obtain ⟨q, hq, h1, h2, hqw, hqi⟩ := inverse_spec p hw hv
  obtain ⟨b1, b2⟩ := (valid_iff_bijection p hw).1 hv
  have hl : ∀ i, p.InRange i → ∃ v, p.get i = some v ∧ q.get v = some i := by
    intro i hi
    obtain ⟨v, hv, _⟩ := b1 i hi
    exact ⟨v, hv, hqi i v hv⟩
  have hr : ∀ v, p.InRange v → ∃ i, q.get v = some i ∧ p.get i = some v := by
    intro v hv
    obtain ⟨i, ⟨_, hi⟩, _⟩ := b2 v hv
    exact ⟨i, hqi i v hi, hi⟩
  have hrange : ∀ x, q.InRange x ↔ p.InRange x := by
    intro x; simp [InRange, h1, h2]
  refine ⟨q, hq, hqw, ?_, h1, h2, hl, hr⟩
  rw [valid_iff_bijection q hqw]
  refine ⟨?_, ?_⟩
  · intro v hv
    obtain ⟨i, h, h'⟩ := hr v ((hrange v).1 hv)
    exact ⟨i, h, (hrange i).2 (get_some p i v h').1⟩
  · intro i hi
    obtain ⟨v, h, h'⟩ := hl i ((hrange i).1 hi)
    refine ⟨v, ⟨(get_some q v i h').1, h'⟩, ?_⟩
    rintro w ⟨hw1, hw2⟩
    obtain ⟨j, hj, hj'⟩ := hr w ((hrange w).1 hw1)
    have : j = i := by rw [hw2] at hj; simpa using hj.symm
    subst this
    rw [h] at hj'
    simpa using hj'.symm

/-- C13: inverting twice gives back the permutation. -/
theorem C13_inverse_involutive (p : IntPerm) (hw : p.WF) (hv : p.isValid = true) :
    ∃ q, p.inverse = some q ∧ q.inverse = some p := by
  obtain ⟨q, hq, hqw, hqv, h1, h2, hl, hr⟩ := C13_inverse p hw hv
  refine ⟨q, hq, ?_⟩
  obtain ⟨r, hr', r1, r2, hrw, hri⟩ := inverse_spec q hqw hqv
  rw [hr']
  have : r = p := by
    have hlen : r.contents.length = p.contents.length := by
      rw [hrw.2, hw.2, r1, r2, h1, h2]
    have hc : r.contents = p.contents := by
      apply List.ext_getElem hlen
      intro k hk hk'
      have hw1 := hw.1
      have hw2 := hw.2
      have hir : p.InRange (p.minElement + k) := ⟨by omega, by omega⟩
      obtain ⟨v, hpv, hqv⟩ := hl _ hir
      have := hri v _ hqv
      obtain ⟨_, _, e1⟩ := get_some r _ _ this
      obtain ⟨_, _, e2⟩ := get_some p _ _ hpv
      simp only [r1, h1] at e1
      simp only [Nat.add_sub_cancel_left] at e1 e2
      rw [e1, e2]
    obtain ⟨rc, rm, rM⟩ := r
    obtain ⟨pc, pm, pM⟩ := p
    simp only at *
    subst hc
    simp [r1, r2, h1, h2]
  rw [this]

/-- C13: a slice agrees with the permutation on its interval, and is valid exactly when the
permutation maps that interval to itself. -/
theorem C13_slice (p : IntPerm) (hw : p.WF) (hv : p.isValid = true) (lo hi : Nat)
    (h1 : p.minElement ≤ lo) (h2 : lo ≤ hi) (h3 : hi ≤ p.maxElement) :
    ∃ q, p.slice lo hi = some q ∧ q.WF ∧
      (∀ i, lo ≤ i → i ≤ hi → q.get i = p.get i) ∧
      (q.isValid = true ↔ ∀ i, lo ≤ i → i ≤ hi → ∃ v, p.get i = some v ∧ lo ≤ v ∧ v ≤ hi) := by
  have hw1 := hw.1
  have hw2 := hw.2
  have hlt : hi - p.minElement < p.contents.length := by omega
  let q : IntPerm := ⟨(p.contents.drop (lo - p.minElement)).take (hi - lo + 1), lo, hi⟩
  have hq : p.slice lo hi = some q := by
    simp only [slice]
    rw [if_pos ⟨h1, h2, h3⟩, if_pos hlt]
  have hqw : q.WF := by
    refine ⟨h2, ?_⟩
    simp only [q, List.length_take, List.length_drop]
    omega
  have hget : ∀ i, lo ≤ i → i ≤ hi → q.get i = p.get i := by
    intro i hi1 hi2
    simp only [IntPerm.get, q]
    rw [if_pos ⟨hi1, hi2⟩, if_pos ⟨by omega, by omega⟩]
    rw [List.getElem?_take_of_lt (by omega), List.getElem?_drop]
    congr 1
    omega
  refine ⟨q, hq, hqw, hget, ?_⟩
  constructor
  · intro hqv i hi1 hi2
    obtain ⟨b1, _⟩ := (valid_iff_bijection q hqw).1 hqv
    obtain ⟨v, hv, hr⟩ := b1 i ⟨hi1, hi2⟩
    exact ⟨v, by rw [← hget i hi1 hi2, hv], hr.1, hr.2⟩
  · intro hm
    rw [isValid_iff] at hv ⊢
    constructor
    · intro x hx
      obtain ⟨k, hk, rfl⟩ := List.getElem_of_mem hx
      have hql := hqw.2
      have e1 : q.minElement = lo := rfl
      have e2 : q.maxElement = hi := rfl
      obtain ⟨v, hv, hr⟩ := hm (lo + k) (by omega) (by omega)
      rw [← hget _ (by omega) (by omega)] at hv
      obtain ⟨_, h, he⟩ := get_some q _ _ hv
      have : q.contents[k] = v := by rw [← he]; congr 1; omega
      rw [this]; exact hr
    · exact (hv.2.sublist (List.drop_sublist _ _)).sublist (List.take_sublist _ _)

/-- C13: both constructors give the identity permutation. -/
theorem C13_constructors :
    (∀ n, 0 < n → n < 2 ^ 64 → (ofSize n).WF ∧ (ofSize n).isValid = true ∧
      ∀ i < n, (ofSize n).get i = some i) ∧
    (∀ lo hi, lo ≤ hi → ∃ p, ofRange lo hi = some p ∧ p.WF ∧ p.isValid = true ∧
      ∀ i, lo ≤ i → i ≤ hi → p.get i = some i) := by
  constructor
  · intro n hn hb
    have hm : (n + (2 ^ 64 - 1)) % 2 ^ 64 = n - 1 := by omega
    have hw : (ofSize n).WF := by
      refine ⟨Nat.zero_le _, ?_⟩
      simp only [ofSize, hm, List.length_range]; omega
    refine ⟨hw, ?_, ?_⟩
    · rw [isValid_iff]
      simp only [ofSize, hm]
      refine ⟨fun x hx => ?_, List.nodup_range⟩
      have := List.mem_range.1 hx
      omega
    · intro i hi
      have hi' : i ≤ n - 1 := by omega
      simp [IntPerm.get, ofSize, hm, hi, hi']
  · intro lo hi h
    refine ⟨⟨List.range' lo (hi - lo + 1), lo, hi⟩, by simp [ofRange, h], ⟨h, by simp⟩, ?_, ?_⟩
    · rw [isValid_iff]
      refine ⟨fun x hx => ?_, List.nodup_range'⟩
      have := List.mem_range'_1.1 hx
      exact ⟨by simp; omega, by simp; omega⟩
    · intro i h1 h2
      have hk : i - lo < hi - lo + 1 := by omega
      simp [IntPerm.get, h1, h2, hk]

/-- C13: the default-constructed (empty) permutation reports the wrapped bound `2^64 - 1`, and
inverting it reads outside its contents. -/
theorem C13_default_inverse_undefined :
    (ofSize 0).maxElement = 2 ^ 64 - 1 ∧ (ofSize 0).inverse = none := by
  refine ⟨by simp [ofSize], ?_⟩
  have : List.range' 0 (2 ^ 64 - 1 - 0 + 1) = 0 :: List.range' 1 (2 ^ 64 - 1) := by
    rw [List.range'_succ]
  simp only [inverse, ofRange, ofSize]
  simp only [List.range_zero, Nat.zero_add]
  rw [show (2 ^ 64 - 1) % 2 ^ 64 = 2 ^ 64 - 1 by decide]
  rw [this]
  simp only [Nat.zero_le, if_true, Option.bind_eq_bind, Option.bind_some, List.foldlM_cons,
    inverseStep, List.getElem?_nil, Option.bind_none]

/-- C13: `get` after `set`. -/
theorem C13_get_set (p : IntPerm) (hw : p.WF) (i v : Nat) (hi : p.InRange i) :
    ∃ q, p.set i v = some q ∧ q.get i = some v ∧ ∀ j, p.InRange j → j ≠ i → q.get j = p.get j := by
  have hw2 := hw.2
  obtain ⟨h1, h2⟩ := hi
  have hlt : i - p.minElement < p.contents.length := by omega
  refine ⟨{ p with contents := p.contents.set (i - p.minElement) v }, ?_, ?_, ?_⟩
  · simp [IntPerm.set, h1, h2, hlt]
  · simp [IntPerm.get, h1, h2, hlt]
  · intro j hj hne
    simp only [IntPerm.get, hj.1, hj.2, and_self, if_true]
    rw [List.getElem?_set_ne]
    have := hj.1
    omega

/-- the permutation 3,5,4 of `[3,5]`: valid, with inverse 3,5,4; a 4,5,3 example is not its own
inverse. -/
example : (⟨[4, 5, 3], 3, 5⟩ : IntPerm).WF ∧ (⟨[4, 5, 3], 3, 5⟩ : IntPerm).isValid = true ∧
    (⟨[4, 5, 3], 3, 5⟩ : IntPerm).inverse = some ⟨[5, 3, 4], 3, 5⟩ := by
  refine ⟨by simp [IntPerm.WF], by decide, by decide⟩

end Crypto3Zk
