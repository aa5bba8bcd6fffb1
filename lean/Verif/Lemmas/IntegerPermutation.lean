import Verif.Spec.IntegerPermutation
import Mathlib.Data.List.Nodup
import Mathlib.Data.List.Perm.Basic
import Mathlib.Data.List.Perm.Subperm
import Mathlib.Data.List.Range

namespace Crypto3Zk.IntPerm

theorem isValidLoop_iff (lo hi : Nat) (elems xs : List Nat) :
    isValidLoop lo hi elems xs = true ↔
      (∀ x ∈ xs, lo ≤ x ∧ x ≤ hi) ∧ xs.Nodup ∧ (∀ x ∈ xs, x ∉ elems) := by
  induction xs generalizing elems with
  | nil => simp [isValidLoop]
  | cons x xs ih =>
    simp only [isValidLoop]
    split
    · rename_i h
      simp only [Bool.or_eq_true, decide_eq_true_eq, List.contains_iff_mem] at h
      simp only [Bool.false_eq_true, List.mem_cons, forall_eq_or_imp, List.nodup_cons, false_iff]
      rintro ⟨⟨h1, _⟩, _, h2, _⟩
      rcases h with h | h
      · omega
      · exact h2 h
    · rename_i h
      simp only [Bool.or_eq_true, decide_eq_true_eq, List.contains_iff_mem, not_or] at h
      rw [ih]
      simp only [List.mem_cons, forall_eq_or_imp, List.nodup_cons, not_or]
      constructor
      · rintro ⟨h1, h2, h3⟩
        exact ⟨⟨by omega, h1⟩, ⟨fun hx => (h3 x hx).1 rfl, h2⟩, h.2, fun a ha => (h3 a ha).2⟩
      · rintro ⟨⟨_, h1⟩, ⟨h2, h3⟩, _, h5⟩
        exact ⟨h1, h3, fun a ha => ⟨fun e => h2 (e ▸ ha), h5 a ha⟩⟩

theorem isValid_iff (p : IntPerm) :
    p.isValid = true ↔ (∀ x ∈ p.contents, p.minElement ≤ x ∧ x ≤ p.maxElement) ∧
      p.contents.Nodup := by
  simp [isValid, isValidLoop_iff]

theorem isValid_perm (p : IntPerm) (hw : p.WF) (hv : p.isValid = true) :
    p.contents.Perm (List.range' p.minElement (p.maxElement - p.minElement + 1)) := by
  rw [isValid_iff] at hv
  obtain ⟨h1, h2⟩ := hv
  apply List.Subperm.perm_of_length_le
  · apply List.Nodup.subperm h2
    intro x hx
    have := h1 x hx
    have := hw.1
    simp only [List.mem_range'_1]
    omega
  · simp [hw.2]

theorem get_eq (p : IntPerm) (hw : p.WF) (i : Nat) (hi : p.InRange i) :
    ∃ h : i - p.minElement < p.contents.length, p.get i = some p.contents[i - p.minElement] := by
  obtain ⟨h1, h2⟩ := hw
  obtain ⟨h3, h4⟩ := hi
  have h : i - p.minElement < p.contents.length := by omega
  refine ⟨h, ?_⟩
  simp [get, h3, h4, h]

theorem get_some (p : IntPerm) (i v : Nat) (h : p.get i = some v) :
    p.InRange i ∧ ∃ h : i - p.minElement < p.contents.length,
      p.contents[i - p.minElement] = v := by
  simp only [get] at h
  split at h
  · rename_i hr
    refine ⟨hr, ?_⟩
    rw [List.getElem?_eq_some_iff] at h
    exact h
  · simp at h

theorem valid_iff_bijection (p : IntPerm) (hw : p.WF) :
    p.isValid = true ↔ p.IsBijection := by
  constructor
  · intro hv
    have hperm := isValid_perm p hw hv
    have hv' := hv
    rw [isValid_iff] at hv'
    obtain ⟨hr, hn⟩ := hv'
    refine ⟨?_, ?_⟩
    · intro i hi
      obtain ⟨h, he⟩ := get_eq p hw i hi
      exact ⟨_, he, hr _ (List.getElem_mem h)⟩
    · intro v hvr
      have hmem : v ∈ p.contents := by
        rw [hperm.mem_iff, List.mem_range'_1]
        have := hvr.1; have := hvr.2; omega
      obtain ⟨k, hk, rfl⟩ := List.getElem_of_mem hmem
      have hw1 := hw.1
      have hw2 := hw.2
      refine ⟨p.minElement + k, ⟨⟨by omega, by omega⟩, ?_⟩, ?_⟩
      · obtain ⟨h, he⟩ := get_eq p hw (p.minElement + k) ⟨by omega, by omega⟩
        rw [he]; simp
      · rintro j ⟨hj, hjv⟩
        obtain ⟨_, h, he⟩ := get_some p j _ hjv
        have := (List.Nodup.getElem_inj_iff hn).1 he
        have := hj.1
        omega
  · rintro ⟨h1, h2⟩
    rw [isValid_iff]
    have hw1 := hw.1
    have hw2 := hw.2
    have key : ∀ k (hk : k < p.contents.length), p.InRange (p.minElement + k) ∧
        p.get (p.minElement + k) = some p.contents[k] ∧ p.InRange p.contents[k] := by
      intro k hk
      have hi : p.InRange (p.minElement + k) := ⟨by omega, by omega⟩
      obtain ⟨v, hv, hr⟩ := h1 _ hi
      obtain ⟨h, he⟩ := get_eq p hw _ hi
      have : p.contents[k] = v := by
        rw [he] at hv
        simpa using hv
      exact ⟨hi, by rw [hv, this], this ▸ hr⟩
    constructor
    · intro x hx
      obtain ⟨k, hk, rfl⟩ := List.getElem_of_mem hx
      exact (key k hk).2.2
    · rw [List.nodup_iff_injective_get]
      rintro ⟨a, ha⟩ ⟨b, hb⟩ hab
      simp only [List.get_eq_getElem] at hab
      obtain ⟨a1, a2, a3⟩ := key a ha
      obtain ⟨b1, b2, _⟩ := key b hb
      have := (h2 _ a3).unique ⟨a1, a2⟩ ⟨b1, by rw [b2, hab]⟩
      simp only [Fin.mk.injEq]
      omega

/-- effect of the loop of `inverse` -/
theorem inverse_fold (p : IntPerm) (hw : p.WF) (hv : p.isValid = true) (n : Nat)
    (hn : n ≤ p.contents.length) (res : List Nat) (hl : res.length = p.contents.length) :
    ∃ out, (List.range' p.minElement n).foldlM (inverseStep p) res = some out ∧
      out.length = p.contents.length ∧
      ∀ k (hk : k < n) , out[p.contents[k]'(by omega) - p.minElement]? = some (p.minElement + k) := by
  have hv' := hv
  rw [isValid_iff] at hv'
  obtain ⟨hr, hnd⟩ := hv'
  induction n with
  | zero => exact ⟨res, by simp, hl, by simp⟩
  | succ n ih =>
    obtain ⟨out, ho, hlen, hout⟩ := ih (by omega)
    have hnl : n < p.contents.length := by omega
    have hrn := hr p.contents[n] (List.getElem_mem hnl)
    have hw1 := hw.1
    have hw2 := hw.2
    refine ⟨out.set (p.contents[n] - p.minElement) (p.minElement + n), ?_, by simp [hlen], ?_⟩
    · rw [List.range'_concat]
      rw [List.foldlM_append, ho]
      have hlt : p.contents[n] - p.minElement < out.length := by omega
      simp [inverseStep, hrn.1, hlt, hnl]
    · intro k hk
      have hkl : k < p.contents.length := by omega
      have hrk := hr p.contents[k] (List.getElem_mem hkl)
      by_cases hkn : k = n
      · subst hkn
        rw [List.getElem?_set_self]
        omega
      · have hne : p.contents[n] ≠ p.contents[k] := by
          intro h
          exact hkn ((List.Nodup.getElem_inj_iff hnd).1 h.symm)
        rw [List.getElem?_set_ne (by omega)]
        exact hout k (by omega)

theorem inverse_spec (p : IntPerm) (hw : p.WF) (hv : p.isValid = true) :
    ∃ q, p.inverse = some q ∧ q.minElement = p.minElement ∧ q.maxElement = p.maxElement ∧ q.WF ∧
      ∀ i v, p.get i = some v → q.get v = some i := by
  have hw1 := hw.1
  have hw2 := hw.2
  obtain ⟨out, ho, hlen, hout⟩ := inverse_fold p hw hv p.contents.length le_rfl
    (List.range' p.minElement (p.maxElement - p.minElement + 1)) (by simp [hw2])
  refine ⟨⟨out, p.minElement, p.maxElement⟩, ?_, rfl, rfl, ⟨hw1, by simp; omega⟩, ?_⟩
  · rw [hw2] at ho
    simp [inverse, ofRange, hw1, ho]
  · intro i v hiv
    obtain ⟨hi, hlt, he⟩ := get_some p i v hiv
    have hvr : p.minElement ≤ v ∧ v ≤ p.maxElement := by
      rw [isValid_iff] at hv
      exact he ▸ hv.1 _ (List.getElem_mem hlt)
    have := hout (i - p.minElement) hlt
    rw [he] at this
    simp only [get, hvr.1, hvr.2, and_self, if_true]
    rw [this]
    have := hi.1
    congr 1
    omega

end Crypto3Zk.IntPerm
