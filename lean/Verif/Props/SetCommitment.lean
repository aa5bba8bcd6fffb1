import Verif.Model.SetCommitment
import Verif.Spec.SetCommitment
import Mathlib.Data.List.Induction
import Mathlib.Data.List.Nodup

/-!
# C58: the set-commitment accumulator tracks exactly the added elements

`H` is the hash of values, `M` the Merkle tree interface; both are arbitrary. A history is a list of
added values on a new accumulator.
-/

set_option linter.unusedSectionVars false

namespace Crypto3Zk

variable {Tree Root Path : Type}

theorem firstOccurrences_append {α : Type} [DecidableEq α] (l : List α) (x : α) :
    firstOccurrences (l ++ [x]) =
      if x ∈ firstOccurrences l then firstOccurrences l else firstOccurrences l ++ [x] := by
  unfold firstOccurrences
  rw [List.foldl_append]
  rfl

theorem firstOccurrences_spec {α : Type} [DecidableEq α] (l : List α) :
    (firstOccurrences l).Nodup ∧ ∀ x, x ∈ firstOccurrences l ↔ x ∈ l := by
  induction l using List.reverseRecOn with
  | nil => simp [firstOccurrences]
  | append_singleton l a ih =>
    rw [firstOccurrences_append]
    split_ifs with h
    · refine ⟨ih.1, fun x => ?_⟩
      rw [ih.2, List.mem_append, List.mem_singleton]
      constructor
      · exact Or.inl
      · rintro (hx | rfl)
        · exact hx
        · exact (ih.2 x).1 h
    · constructor
      · rw [List.nodup_append]
        exact ⟨ih.1, by simp, by rintro x hx y hy rfl; rw [List.mem_singleton.1 hy] at hx; exact h hx⟩
      · intro x; rw [List.mem_append, List.mem_append, ih.2]

theorem addAll_append (M : MerkleOps Tree Root Path) (H : Bits → Bits) (a : SetAccumulator Tree)
    (l l' : List Bits) :
    a.addAll M H (l ++ l') = (a.addAll M H l).bind fun b => b.addAll M H l' := by
  induction l generalizing a with
  | nil => rfl
  | cons v l ih =>
    simp only [List.cons_append, SetAccumulator.addAll]
    cases a.add M H v with
    | none => rfl
    | some b => simp [ih]

/-- The map of an accumulator after the digests `ds` were first seen in this order. -/
def posMap (ds : List Bits) : List (Bits × Nat) := ds.zipIdx

theorem find_posMap (ds : List Bits) (hd : ds.Nodup) (h : Bits) :
    ((posMap ds).find? fun e => e.1 = h).map (·.2) = if h ∈ ds then some (ds.idxOf h) else none := by
  induction ds using List.reverseRecOn with
  | nil => simp [posMap]
  | append_singleton ds x ih =>
    rw [List.nodup_append] at hd
    have ih := ih hd.1
    unfold posMap at ih ⊢
    rw [List.zipIdx_append, List.find?_append]
    by_cases hm : h ∈ ds
    · rw [if_pos hm] at ih
      rw [if_pos (by simp [hm]), List.idxOf_append_of_mem hm]
      cases hf : (ds.zipIdx).find? (fun e => decide (e.1 = h)) with
      | none => simp [hf] at ih
      | some e => simpa [hf] using ih
    · rw [if_neg hm] at ih
      have hf : (ds.zipIdx).find? (fun e => decide (e.1 = h)) = none := by simpa using ih
      rw [hf, List.idxOf_append_of_notMem hm]
      by_cases hx : x = h
      · subst hx; simp
      · have hx' : ¬ h = x := fun hh => hx hh.symm
        simp [hx, hm, hx']

theorem setAccumulator_run (M : MerkleOps Tree Root Path) (H : Bits → Bits)
    (digestSize maxEntries valueSize : Nat) (a0 : SetAccumulator Tree)
    (h0 : SetAccumulator.make M digestSize maxEntries valueSize = some a0) (values : List Bits)
    (a : SetAccumulator Tree) (ha : a0.addAll M H values = some a) :
    a.hashToPos = posMap (firstOccurrences (values.map H)) ∧ a.valueSize = valueSize ∧
      a.depth = Nat.clog 2 maxEntries ∧
      a.tree = (posMap (firstOccurrences (values.map H))).foldl
        (fun t e => M.setValue t e.2 e.1) (M.empty (Nat.clog 2 maxEntries) digestSize) := by
  induction values using List.reverseRecOn generalizing a with
  | nil =>
    simp only [SetAccumulator.addAll, Option.some.injEq] at ha
    subst ha
    unfold SetAccumulator.make at h0
    split_ifs at h0
    simp only [Option.some.injEq] at h0
    subst h0
    simp [firstOccurrences, posMap]
  | append_singleton values v ih =>
    rw [addAll_append] at ha
    cases hb : a0.addAll M H values with
    | none => simp [hb] at ha
    | some b =>
      simp only [hb, Option.bind_some, SetAccumulator.addAll] at ha
      obtain ⟨h1, h2, h3, h4⟩ := ih b hb
      cases hadd : b.add M H v with
      | none => simp [hadd] at ha
      | some c =>
        simp only [hadd, Option.bind_some, Option.some.injEq] at ha
        subst ha
        unfold SetAccumulator.add at hadd
        split_ifs at hadd with hsz
        simp only at hadd
        by_cases hn : (b.find (H v)).isNone = true
        · rw [if_pos hn] at hadd
          simp only [Option.some.injEq] at hadd
          have hfind : b.find (H v) = none := Option.isNone_iff_eq_none.1 hn
          unfold SetAccumulator.find at hfind
          rw [h1, find_posMap _ (firstOccurrences_spec _).1] at hfind
          have hnm : H v ∉ firstOccurrences (values.map H) := by
            intro hm; rw [if_pos hm] at hfind; cases hfind
          have hfo : firstOccurrences ((values ++ [v]).map H) =
              firstOccurrences (values.map H) ++ [H v] := by
            rw [List.map_append, List.map_singleton, firstOccurrences_append, if_neg hnm]
          have hpm : posMap (firstOccurrences ((values ++ [v]).map H)) =
              posMap (firstOccurrences (values.map H)) ++
                [(H v, (firstOccurrences (values.map H)).length)] := by
            rw [hfo]
            unfold posMap
            rw [List.zipIdx_append]
            simp
          have hl : b.hashToPos.length = (firstOccurrences (values.map H)).length := by
            rw [h1]; simp [posMap]
          subst hadd
          refine ⟨?_, h2, h3, ?_⟩
          · simp only
            rw [hpm, h1]
            congr 3
            simp [posMap]
          · simp only
            rw [hpm, List.foldl_append, ← h4]
            simp [hl]
        · rw [if_neg hn] at hadd
          simp only [Option.some.injEq] at hadd
          subst hadd
          have hfind : b.find (H v) ≠ none := fun hh => hn (by simp [hh])
          unfold SetAccumulator.find at hfind
          rw [h1, find_posMap _ (firstOccurrences_spec _).1] at hfind
          have hm : H v ∈ firstOccurrences (values.map H) := by
            by_contra hm; rw [if_neg hm] at hfind; exact hfind rfl
          have hfo : firstOccurrences ((values ++ [v]).map H) =
              firstOccurrences (values.map H) := by
            rw [List.map_append, List.map_singleton, firstOccurrences_append, if_pos hm]
          rw [hfo]
          exact ⟨h1, h2, h3, h4⟩

/-- **C58** (membership): after any history, a value is reported as a member exactly when a value
with the same digest was added. -/
theorem C58_member (M : MerkleOps Tree Root Path) (H : Bits → Bits)
    (digestSize maxEntries valueSize : Nat) (a0 a : SetAccumulator Tree)
    (h0 : SetAccumulator.make M digestSize maxEntries valueSize = some a0) (values : List Bits)
    (ha : a0.addAll M H values = some a) (v : Bits)
    (hv : valueSize = 0 ∨ v.length = valueSize) :
    a.isInSet H v = some (decide (∃ w ∈ values, H w = H v)) := by
  obtain ⟨h1, h2, _⟩ := setAccumulator_run M H digestSize maxEntries valueSize a0 h0 values a ha
  unfold SetAccumulator.isInSet SetAccumulator.find
  rw [if_pos (by rw [h2]; exact hv), h1, find_posMap _ (firstOccurrences_spec _).1]
  congr 1
  by_cases hm : H v ∈ firstOccurrences (values.map H)
  · have := ((firstOccurrences_spec _).2 _).1 hm
    rw [List.mem_map] at this
    simp [hm, this]
  · have : ¬ H v ∈ values.map H := fun hh => hm (((firstOccurrences_spec _).2 _).2 hh)
    rw [List.mem_map] at this
    simp only [hm, if_false, Option.isSome_none]
    symm
    rw [decide_eq_false_iff_not]
    exact this

/-- **C58** (no false members): if equal digests mean equal values, membership is exactly having been
added. -/
theorem C58_member_injective (M : MerkleOps Tree Root Path) (H : Bits → Bits)
    (digestSize maxEntries valueSize : Nat) (a0 a : SetAccumulator Tree)
    (h0 : SetAccumulator.make M digestSize maxEntries valueSize = some a0) (values : List Bits)
    (ha : a0.addAll M H values = some a) (v : Bits)
    (hv : valueSize = 0 ∨ v.length = valueSize) (hinj : ∀ w ∈ values, H w = H v → w = v) :
    a.isInSet H v = some (decide (v ∈ values)) := by
  rw [C58_member M H digestSize maxEntries valueSize a0 a h0 values ha v hv]
  congr 1
  rw [decide_eq_decide]
  exact ⟨fun ⟨w, hw, he⟩ => hinj w hw he ▸ hw, fun h => ⟨v, h, rfl⟩⟩

/-- **C58** (positions): the address in a membership proof is the place of the value's digest among
the distinct digests in order of first addition, and the path is the tree's path at this address; a
value that is not a member has no proof. -/
theorem C58_position (M : MerkleOps Tree Root Path) (H : Bits → Bits)
    (digestSize maxEntries valueSize : Nat) (a0 a : SetAccumulator Tree)
    (h0 : SetAccumulator.make M digestSize maxEntries valueSize = some a0) (values : List Bits)
    (ha : a0.addAll M H values = some a) (v : Bits) :
    a.membershipProof M H v =
      if H v ∈ values.map H then
        some ((firstOccurrences (values.map H)).idxOf (H v),
          M.path a.tree ((firstOccurrences (values.map H)).idxOf (H v)))
      else none := by
  obtain ⟨h1, _⟩ := setAccumulator_run M H digestSize maxEntries valueSize a0 h0 values a ha
  unfold SetAccumulator.membershipProof SetAccumulator.find
  rw [h1, find_posMap _ (firstOccurrences_spec _).1]
  by_cases hm : H v ∈ values.map H
  · rw [if_pos (((firstOccurrences_spec _).2 _).2 hm), if_pos hm]
  · rw [if_neg (fun hh => hm (((firstOccurrences_spec _).2 _).1 hh)), if_neg hm]

/-- **C58** (positions never change): later additions leave the address of a member as it was. -/
theorem C58_position_stable (M : MerkleOps Tree Root Path) (H : Bits → Bits)
    (digestSize maxEntries valueSize : Nat) (a0 a b : SetAccumulator Tree)
    (h0 : SetAccumulator.make M digestSize maxEntries valueSize = some a0)
    (values later : List Bits) (ha : a0.addAll M H values = some a)
    (hb : a0.addAll M H (values ++ later) = some b) (v : Bits) (pos : Nat) (path : Path)
    (hp : a.membershipProof M H v = some (pos, path)) :
    ∃ path', b.membershipProof M H v = some (pos, path') := by
  rw [C58_position M H _ _ _ a0 a h0 values ha] at hp
  split_ifs at hp with hm
  simp only [Option.some.injEq, Prod.mk.injEq] at hp
  rw [C58_position M H _ _ _ a0 b h0 _ hb, if_pos (by rw [List.map_append]; simp only [List.mem_append]; exact Or.inl hm)]
  have hpre : ∃ t, firstOccurrences ((values ++ later).map H) =
      firstOccurrences (values.map H) ++ t := by
    clear hb hp
    induction later using List.reverseRecOn with
    | nil => exact ⟨[], by simp⟩
    | append_singleton later x ih =>
      obtain ⟨t, ht⟩ := ih
      rw [← List.append_assoc, List.map_append, List.map_singleton, firstOccurrences_append, ht]
      split_ifs
      · exact ⟨t, rfl⟩
      · exact ⟨t ++ [H x], by simp⟩
  obtain ⟨t, ht⟩ := hpre
  refine ⟨M.path b.tree pos, ?_⟩
  rw [ht, List.idxOf_append_of_mem (((firstOccurrences_spec _).2 _).2 hm), hp.1]

/-- **C58** (positions are distinct): two members with different digests have different addresses,
and the addresses are below the number of distinct digests. -/
theorem C58_position_distinct (M : MerkleOps Tree Root Path) (H : Bits → Bits)
    (digestSize maxEntries valueSize : Nat) (a0 a : SetAccumulator Tree)
    (h0 : SetAccumulator.make M digestSize maxEntries valueSize = some a0) (values : List Bits)
    (ha : a0.addAll M H values = some a) (v w : Bits) (pos pos' : Nat) (path path' : Path)
    (hv : a.membershipProof M H v = some (pos, path))
    (hw : a.membershipProof M H w = some (pos', path')) :
    (pos = pos' ↔ H v = H w) ∧ pos < (firstOccurrences (values.map H)).length := by
  rw [C58_position M H _ _ _ a0 a h0 values ha] at hv hw
  split_ifs at hv hw with h1 h2
  simp only [Option.some.injEq, Prod.mk.injEq] at hv hw
  have m1 := ((firstOccurrences_spec (values.map H)).2 _).2 h1
  have m2 := ((firstOccurrences_spec (values.map H)).2 _).2 h2
  refine ⟨?_, hv.1 ▸ List.idxOf_lt_length_of_mem m1⟩
  rw [← hv.1, ← hw.1]
  exact List.idxOf_inj m1

/-- **C58** (adding twice): adding a value whose digest is already there changes nothing. -/
theorem C58_add_again (M : MerkleOps Tree Root Path) (H : Bits → Bits)
    (digestSize maxEntries valueSize : Nat) (a0 a : SetAccumulator Tree)
    (h0 : SetAccumulator.make M digestSize maxEntries valueSize = some a0) (values : List Bits)
    (ha : a0.addAll M H values = some a) (v w : Bits) (hw : w ∈ values) (hvw : H v = H w)
    (hv : valueSize = 0 ∨ v.length = valueSize) :
    a.add M H v = some a := by
  obtain ⟨h1, h2, _⟩ := setAccumulator_run M H digestSize maxEntries valueSize a0 h0 values a ha
  unfold SetAccumulator.add SetAccumulator.find
  rw [if_pos (by rw [h2]; exact hv)]
  simp only
  rw [h1, find_posMap _ (firstOccurrences_spec _).1,
    if_pos (((firstOccurrences_spec _).2 _).2 (hvw ▸ List.mem_map_of_mem hw))]
  simp

/-- **C58** (the tree): the Merkle tree holds, at address `p`, the `p`-th distinct digest; the tree
is written at no other address and never twice at the same one. With no more distinct digests than
`max_entries` every address is inside a tree of the chosen depth. -/
theorem C58_tree (M : MerkleOps Tree Root Path) (H : Bits → Bits)
    (digestSize maxEntries valueSize : Nat) (a0 a : SetAccumulator Tree)
    (h0 : SetAccumulator.make M digestSize maxEntries valueSize = some a0) (values : List Bits)
    (ha : a0.addAll M H values = some a) :
    a.tree = (firstOccurrences (values.map H)).zipIdx.foldl (fun t e => M.setValue t e.2 e.1)
        (M.empty a.depth digestSize) ∧
      ((firstOccurrences (values.map H)).length ≤ maxEntries →
        ∀ e ∈ (firstOccurrences (values.map H)).zipIdx, e.2 < 2 ^ a.depth) := by
  obtain ⟨_, _, h3, h4⟩ := setAccumulator_run M H digestSize maxEntries valueSize a0 h0 values a ha
  rw [h3]
  refine ⟨h4, fun hle e he => ?_⟩
  have h5 := List.mem_zipIdx he
  have h6 := Nat.le_pow_clog (b := 2) (by decide) maxEntries
  omega

/-- The history is accepted exactly when every value has the announced size. -/
theorem C58_defined (M : MerkleOps Tree Root Path) (H : Bits → Bits)
    (digestSize maxEntries valueSize : Nat) (a0 : SetAccumulator Tree)
    (h0 : SetAccumulator.make M digestSize maxEntries valueSize = some a0) (values : List Bits) :
    (a0.addAll M H values).isSome ↔ valueSize = 0 ∨ ∀ v ∈ values, v.length = valueSize := by
  induction values using List.reverseRecOn with
  | nil => simp [SetAccumulator.addAll]
  | append_singleton values v ih =>
    rw [addAll_append]
    cases hb : a0.addAll M H values with
    | none =>
      simp only [hb, Option.isSome_none, Bool.false_eq_true, false_iff] at ih
      simp only [Option.bind_none, Option.isSome_none, Bool.false_eq_true, false_iff]
      intro h
      apply ih
      rcases h with h | h
      · exact Or.inl h
      · exact Or.inr fun x hx => h x (List.mem_append_left _ hx)
    | some b =>
      obtain ⟨_, h2, _⟩ := setAccumulator_run M H digestSize maxEntries valueSize a0 h0 values b hb
      simp only [hb, Option.isSome_some, true_iff] at ih
      simp only [Option.bind_some, SetAccumulator.addAll]
      have : (b.add M H v).isSome ↔ valueSize = 0 ∨ v.length = valueSize := by
        unfold SetAccumulator.add
        rw [h2]
        by_cases hc : valueSize = 0 ∨ v.length = valueSize
        · rw [if_pos hc]
          simp only [hc, iff_true]
          split_ifs <;> rfl
        · rw [if_neg hc]
          simp [hc]
      have h3 : ((b.add M H v).bind some).isSome ↔ (b.add M H v).isSome := by
        cases b.add M H v <;> simp
      rw [h3, this]
      constructor
      · rintro (h | h)
        · exact Or.inl h
        · rcases ih with ih | ih
          · exact Or.inl ih
          · refine Or.inr fun x hx => ?_
            rcases List.mem_append.1 hx with hx | hx
            · exact ih x hx
            · rw [List.mem_singleton.1 hx]; exact h
      · rintro (h | h)
        · exact Or.inl h
        · exact Or.inr (h v (by simp))

/-- A tree that is the list of its writes; the "hash" drops the first bit. -/
def exMerkle : MerkleOps (List (Nat × Bits)) (List (Nat × Bits)) Nat :=
  ⟨fun _ _ => [], fun t p b => t ++ [(p, b)], id, fun _ p => p⟩

example : ∃ a0 a, SetAccumulator.make exMerkle 2 3 2 = some a0 ∧
    a0.addAll exMerkle List.tail [[true, false], [false, true], [false, false]] = some a ∧
    a.depth = 2 ∧ a.tree = [(0, [false]), (1, [true])] ∧
    a.isInSet List.tail [true, true] = some true ∧
    a.membershipProof exMerkle List.tail [false, false] = some (0, 0) := by
  have hc : Nat.clog 2 3 = 2 := by decide
  refine ⟨⟨[], [], 2, 2, 2⟩, ⟨[(0, [false]), (1, [true])], [([false], 0), ([true], 1)], 2, 2, 2⟩,
    ?_, by rfl, rfl, rfl, by decide, by decide⟩
  simp [SetAccumulator.make, exMerkle, hc]

end Crypto3Zk
