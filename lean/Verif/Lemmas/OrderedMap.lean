import Verif.Model.OrderedMap
import Mathlib.Data.List.Basic

namespace Crypto3Zk.OMap

variable {V : Type}

theorem find_insert (m : OMap V) (k : Nat) (v : V) (k' : Nat) :
    (m.insert k v).find k' = if k' = k then some v else m.find k' := by
  induction m with
  | nil => simp only [insert, find, eq_comm]
  | cons e m ih =>
    obtain ⟨a, w⟩ := e
    unfold insert
    by_cases h3 : k' = k
    · subst h3
      rw [if_pos rfl] at ih ⊢
      split_ifs with h1 h2
      · simp [find]
      · simp [find]
      · have : a ≠ k' := fun h => h2 h.symm
        simp [find, this, ih]
    · rw [if_neg h3] at ih ⊢
      split_ifs with h1 h2
      · simp [find, Ne.symm h3]
      · subst h2; simp [find, Ne.symm h3]
      · simp only [find, ih]

theorem getD_insert (m : OMap V) (k : Nat) (v : V) (k' : Nat) (d : V) :
    (m.insert k v).getD k' d = if k' = k then v else m.getD k' d := by
  unfold getD; rw [find_insert]; split_ifs <;> rfl

@[simp] theorem find_nil (k : Nat) : find ([] : OMap V) k = none := rfl

@[simp] theorem getD_nil (k : Nat) (d : V) : getD ([] : OMap V) k d = d := rfl

theorem mem_keys_insert (m : OMap V) (k : Nat) (v : V) (k' : Nat) :
    k' ∈ (m.insert k v).keys ↔ k' = k ∨ k' ∈ m.keys := by
  induction m with
  | nil => simp [insert, keys]
  | cons e m ih =>
    obtain ⟨a, w⟩ := e
    unfold insert
    unfold keys at ih ⊢
    split_ifs with h1 h2
    · simp
    · subst h2; simp
    · simp only [List.map_cons, List.mem_cons, ih]; tauto

/-- the keys are in increasing order -/
def Sorted (m : OMap V) : Prop := m.keys.Pairwise (· < ·)

theorem sorted_nil : Sorted ([] : OMap V) := List.Pairwise.nil

theorem sorted_insert (m : OMap V) (k : Nat) (v : V) (h : m.Sorted) : (m.insert k v).Sorted := by
  induction m with
  | nil => simp [insert, Sorted, keys]
  | cons e m ih =>
    obtain ⟨a, w⟩ := e
    have h' : (∀ b ∈ keys m, a < b) ∧ Sorted m := by
      simpa [Sorted, keys] using h
    unfold insert
    split_ifs with h1 h2
    · simp only [Sorted, keys, List.map_cons, List.pairwise_cons, List.mem_cons, forall_eq_or_imp]
      refine ⟨⟨h1, fun b hb => Nat.lt_trans h1 (h'.1 b hb)⟩, h'.1, h'.2⟩
    · subst h2
      simp only [Sorted, keys, List.map_cons, List.pairwise_cons]
      exact ⟨h'.1, h'.2⟩
    · have := ih h'.2
      show ((a :: keys (insert m k v))).Pairwise (· < ·)
      refine List.pairwise_cons.2 ⟨?_, this⟩
      intro b hb
      rcases (mem_keys_insert m k v b).1 hb with rfl | hb
      · omega
      · exact h'.1 b hb

theorem find_isSome_iff (m : OMap V) (k : Nat) : (m.find k).isSome ↔ k ∈ m.keys := by
  induction m with
  | nil => simp [keys]
  | cons e m ih =>
    obtain ⟨a, w⟩ := e
    unfold find
    split_ifs with h
    · subst h; simp [keys]
    · rw [ih]; simp [keys, Ne.symm h]

theorem find_eq_none_iff (m : OMap V) (k : Nat) : m.find k = none ↔ k ∉ m.keys := by
  rw [← find_isSome_iff]; cases m.find k <;> simp

theorem Sorted.cons {a : Nat} {w : V} {m : OMap V} (h : Sorted ((a, w) :: m)) :
    m.find a = none ∧ m.Sorted := by
  have h' : (∀ b ∈ keys m, a < b) ∧ Sorted m := by
    simpa [Sorted, keys] using h
  refine ⟨(find_eq_none_iff m a).2 fun hb => Nat.lt_irrefl _ (h'.1 a hb), h'.2⟩

theorem Sorted.find_mem {m : OMap V} (h : m.Sorted) {k : Nat} {v : V} (hm : (k, v) ∈ m) :
    m.find k = some v := by
  induction m with
  | nil => simp at hm
  | cons e m ih =>
    obtain ⟨a, w⟩ := e
    unfold find
    rcases List.mem_cons.1 hm with he | hm
    · cases he; simp
    · have := ih h.cons.2 hm
      by_cases hak : a = k
      · subst hak; rw [h.cons.1] at this; simp at this
      · rw [if_neg hak]; exact this

theorem find_some_mem {m : OMap V} {k : Nat} {v : V} (h : m.find k = some v) : (k, v) ∈ m := by
  induction m with
  | nil => simp at h
  | cons e m ih =>
    obtain ⟨a, w⟩ := e
    unfold find at h
    split_ifs at h with hak
    · subst hak; cases h; simp
    · exact List.mem_cons_of_mem _ (ih h)

end Crypto3Zk.OMap
