import Verif.Lemmas.LeafData
import Mathlib.Algebra.Field.ZMod

/-!
# C95: the leaves of the Merkle trees
-/

set_option linter.unusedSectionVars false

namespace Crypto3Zk

variable {F W Tree Root Path : Type} {C : LeafCodec F W}

/-- **C95**: a buffer for `size` values into which values are consumed holds the data of these values,
one after the other and in the order in which they came, and zeros in the rest; the prover's leaves,
which are copies of one prototype, as well as the verifier's. -/
theorem C95_layout (hC : C.Lawful) (size : Nat) (xs : List F) (h : xs.length ≤ size) :
    verifierLeaf C size xs =
        some (C.encode xs ++ List.replicate ((size - xs.length) * C.len) C.zero) ∧
      proverLeaf C size xs =
        some (C.encode xs ++ List.replicate ((size - xs.length) * C.len) C.zero) := by
  rw [proverLeaf_eq, verifierLeaf_eq hC, if_pos h]
  exact ⟨rfl, rfl⟩

/-- **C95**: more values than there is room for are never written. -/
theorem C95_overflow (hC : C.Lawful) (size : Nat) (xs : List F) (h : size < xs.length) :
    verifierLeaf C size xs = none ∧ proverLeaf C size xs = none := by
  rw [proverLeaf_eq, verifierLeaf_eq hC, if_neg (by omega)]
  exact ⟨rfl, rfl⟩

/-- **C95**: the single-value buffer holds the data of its value. -/
theorem C95_single (hC : C.Lawful) (x : F) :
    LeafConsumer.ofElement C x = some ⟨C.enc x, some C.len⟩ := by
  unfold LeafConsumer.ofElement LeafConsumer.new LeafConsumer.reset LeafConsumer.consume
  simp

/-- the buffer and its abstraction -/
def LeafRefines (C : LeafCodec F W) (k : LeafConsumer W) (b : LeafSlots F) : Prop :=
  k.data = C.slots b.slots ∧ k.cursor = some (b.next * C.len) ∧ b.next ≤ b.slots.length

theorem length_slot (hC : C.Lawful) (o : Option F) : (C.slot o).length = C.len := by
  cases o with
  | none => simp [LeafCodec.slot]
  | some x => exact hC.length x

theorem length_slots (hC : C.Lawful) (l : List (Option F)) : (C.slots l).length = l.length * C.len := by
  induction l with
  | nil => simp [LeafCodec.slots]
  | cons o l ih =>
    have : C.slots (o :: l) = C.slot o ++ C.slots l := rfl
    rw [this, List.length_append, length_slot hC, ih, List.length_cons]; ring

theorem slots_set (hC : C.Lawful) (x : F) : ∀ (l : List (Option F)) (i : Nat), i < l.length →
    C.slots (l.set i (some x)) =
      (C.slots l).take (i * C.len) ++ C.enc x ++ (C.slots l).drop (i * C.len + C.len)
  | [], i, h => by simp at h
  | o :: l, 0, _ => by
    have h1 : C.slots (o :: l) = C.slot o ++ C.slots l := rfl
    have h2 : C.slots ((o :: l).set 0 (some x)) = C.enc x ++ C.slots l := rfl
    rw [h1, h2]
    simp [List.drop_append, length_slot hC]
  | o :: l, i + 1, h => by
    have h1 : C.slots (o :: l) = C.slot o ++ C.slots l := rfl
    have h2 : C.slots ((o :: l).set (i + 1) (some x)) = C.slot o ++ C.slots (l.set i (some x)) := rfl
    have ih := slots_set hC x l i (by simpa using h)
    have e : (i + 1) * C.len = C.len + i * C.len := by ring
    rw [h1, h2, ih, e]
    have t : (C.slot o ++ C.slots l).take (C.len + i * C.len) =
        C.slot o ++ (C.slots l).take (i * C.len) := by
      rw [List.take_append, length_slot hC,
        List.take_of_length_le (l := C.slot o) (by rw [length_slot hC]; omega)]
      congr 2
      omega
    have d : (C.slot o ++ C.slots l).drop (C.len + i * C.len + C.len) =
        (C.slots l).drop (i * C.len + C.len) := by
      rw [List.drop_append, length_slot hC,
        List.drop_eq_nil_of_le (as := C.slot o) (by rw [length_slot hC]; omega), List.nil_append]
      congr 1
      omega
    rw [t, d]
    simp [List.append_assoc]

theorem leaf_step (hC : C.Lawful) (k : LeafConsumer W) (b : LeafSlots F) (hk : LeafRefines C k b)
    (op : LeafOp F) :
    match b.apply op with
    | none => op.apply C k = none
    | some b' => ∃ k', op.apply C k = some k' ∧ LeafRefines C k' b' := by
  obtain ⟨h1, h2, h3⟩ := hk
  cases op with
  | reset => exact ⟨_, rfl, h1, by simp [LeafConsumer.reset], Nat.zero_le _⟩
  | consume x =>
    simp only [LeafSlots.apply, LeafOp.apply, LeafConsumer.consume, h2, Option.bind_eq_bind,
      Option.bind_some, h1, length_slots hC]
    have e : b.next * C.len + C.len = (b.next + 1) * C.len := by ring
    by_cases h : b.next < b.slots.length
    · rw [if_pos h]
      simp only
      rw [if_pos (by rw [e]; exact Nat.mul_le_mul_right _ h)]
      refine ⟨_, rfl, ?_, ?_, ?_⟩
      · simp only
        rw [slots_set hC x _ _ h]
      · simp only [e]
      · simpa using h
    · rw [if_neg h]
      simp only
      rw [if_neg]
      intro hc
      rw [e] at hc
      have := Nat.le_of_mul_le_mul_right hc hC.pos
      omega

/-- **C95**: over any history of calls a buffer behaves as `size` places for values: it holds the data
of what stands in the places, and a call fails exactly if no place is left. -/
theorem C95_history (hC : C.Lawful) (size : Nat) (ops : List (LeafOp F)) :
    (ops.foldlM (fun k (op : LeafOp F) => op.apply C k) (LeafConsumer.new C size)).map LeafConsumer.data =
      (ops.foldlM LeafSlots.apply ⟨List.replicate size none, 0⟩).map fun b => C.slots b.slots := by
  have h : ∀ (ops : List (LeafOp F)) (k : LeafConsumer W) (b : LeafSlots F), LeafRefines C k b →
      (ops.foldlM (fun k (op : LeafOp F) => op.apply C k) k).map LeafConsumer.data =
        (ops.foldlM LeafSlots.apply b).map fun b => C.slots b.slots := by
    intro ops
    induction ops with
    | nil => intro k b hk; simp [hk.1]
    | cons op ops ih =>
      intro k b hk
      have hs := leaf_step hC k b hk op
      rw [List.foldlM_cons, List.foldlM_cons]
      cases hb : b.apply op with
      | none =>
        rw [hb] at hs
        simp only at hs
        rw [hs]; rfl
      | some b' =>
        rw [hb] at hs
        obtain ⟨k', hk', hr⟩ := hs
        rw [hk']
        exact ih k' b' hr
  apply h
  refine ⟨?_, by simp [LeafConsumer.new, LeafConsumer.reset], Nat.zero_le _⟩
  simp only [LeafConsumer.new, LeafConsumer.reset]
  induction size with
  | zero => simp [LeafCodec.slots]
  | succ n ih =>
    have : C.slots (List.replicate (n + 1) (none : Option F)) =
        List.replicate C.len C.zero ++ C.slots (List.replicate n none) := rfl
    rw [this, ← ih, ← List.replicate_add]
    congr 1
    ring

/-- **C95**: nothing of what was there before is left in a buffer that is filled again: whatever was
done with it, after going back to the beginning and consuming as many values as there are places, it
holds the data of these values. -/
theorem C95_refill (hC : C.Lawful) (size : Nat) (ops : List (LeafOp F)) (k : LeafConsumer W)
    (h : ops.foldlM (fun k (op : LeafOp F) => op.apply C k) (LeafConsumer.new C size) = some k) (xs : List F)
    (hx : xs.length = size) :
    ∃ k', xs.foldlM (LeafConsumer.consume C) k.reset = some k' ∧ k'.data = C.encode xs := by
  have hlen : k.data.length = size * C.len := by
    have hinv : ∀ (ops : List (LeafOp F)) (k0 k : LeafConsumer W),
        ops.foldlM (fun k (op : LeafOp F) => op.apply C k) k0 = some k → k.data.length = k0.data.length := by
      intro ops
      induction ops with
      | nil => intro k0 k h; simp at h; rw [h]
      | cons op ops ih =>
        intro k0 k h
        rw [List.foldlM_cons] at h
        obtain ⟨k1, h1, h⟩ := Option.bind_eq_some_iff.1 h
        rw [ih k1 k h]
        cases op with
        | reset =>
          simp only [LeafOp.apply, Option.some.injEq] at h1
          rw [← h1]; rfl
        | consume x =>
          simp only [LeafOp.apply, LeafConsumer.consume] at h1
          obtain ⟨i, _, h1⟩ := Option.bind_eq_some_iff.1 h1
          split_ifs at h1 with hc
          simp only [Option.some.injEq] at h1
          rw [← h1]
          simp only [List.length_append, List.length_take, List.length_drop, hC.length]
          omega
    rw [hinv ops _ k h]
    simp [LeafConsumer.new, LeafConsumer.reset]
  have := consume_fold hC xs [] k.data
  simp only [List.nil_append, List.length_nil] at this
  rw [if_pos (by rw [hlen, hx])] at this
  refine ⟨_, this, ?_⟩
  simp only
  rw [List.drop_eq_nil_of_le (by rw [hlen, hx]), List.append_nil]

/-- **C95**: a copy of a buffer cannot be written to before its cursor is reset. -/
theorem C95_copy (k : LeafConsumer W) (x : F) :
    k.copy.consume C x = none ∧ k.copy.reset = k.reset := ⟨rfl, rfl⟩

/-- **C95**: leaves have the same data exactly if they hold the same values (of any number of them). -/
theorem C95_same_data (hC : C.Lawful) (xs ys : List F) :
    verifierLeaf C xs.length xs = verifierLeaf C ys.length ys ↔ xs = ys := by
  rw [leaf_full hC _ _ rfl, leaf_full hC _ _ rfl, Option.some.injEq]
  exact ⟨fun h => LeafCodec.encode_injective hC h, fun h => by rw [h]⟩

/-- **C95**: the trees over data are, for everything FRI does with them, trees over values: they keep
their contract, and if they have no collisions over data they have none over values. -/
theorem C95_trees (hC : C.Lawful) (M : MerkleLib W Tree Root Path) :
    (M.Lawful → (M.onValues C).Lawful) ∧
      ∀ pos, M.Binding pos → (M.onValues C).Binding pos := by
  refine ⟨fun hM => ⟨?_, ?_⟩, fun pos hM => ?_⟩
  · intro k leaves i hl hi
    exact hM.root k (leaves.map C.encode) i (by simpa using hl) hi
  · intro k leaves i h hl
    have := hM.validate k (leaves.map C.encode) i (by simpa using h) (by simpa using hl)
    simpa [MerkleLib.onValues] using this
  · intro k leaves path leaf hl hr hv
    have := hM k (leaves.map C.encode) path (C.encode leaf) (by simpa using hl) hr hv
    rw [List.getElem?_map, Option.map_eq_some_iff] at this
    obtain ⟨l, h1, h2⟩ := this
    rw [h1, LeafCodec.encode_injective hC h2]

/-- **C95**: committing to polynomials hashes the data of exactly the values on the cosets: it gives the
tree that the trees over values give. -/
theorem C95_precommit [Field F] (hC : C.Lawful) (L : FftLib F) (M : MerkleLib W Tree Root Path)
    (D : FriDomain F) (step : Nat) :
    (∀ fs, friPrecommitBatchData C L M fs D step = friPrecommitBatch L (M.onValues C) fs D step) ∧
      ∀ f, friPrecommitData C L M f D step = friPrecommit L (M.onValues C) f D step := by
  constructor
  · intro fs
    unfold friPrecommitBatchData friPrecommitBatch
    congr 1
    funext vs
    rw [friLeafData_eq hC]
    cases friLeaves vs D.size step <;> rfl
  · intro f
    unfold friPrecommitData friPrecommit
    congr 1
    funext v
    rw [friLeafData_eq hC]
    cases friLeaves [v] D.size step <;> rfl

/-- **C95**: the verifier hashes the data of exactly the values it was given, for the initial proofs of
a query ... -/
theorem C95_initial [DecidableEq Root] (hC : C.Lawful) (M : MerkleLib W Tree Root Path)
    (step x N : Nat) (ix order : List (Nat × Nat)) (ho : correctOrder x N step ix = some order)
    (commitments : OMap Root) (proofs : OMap (FriInitialProof F Path)) :
    friCheckInitialData C M step commitments order proofs =
      friCheckInitial (M.onValues C) commitments order proofs := by
  induction proofs with
  | nil => rfl
  | cons e proofs ih =>
    obtain ⟨k, ip⟩ := e
    unfold friCheckInitialData friCheckInitial
    congr 1
    funext c
    have hr : (M.onValues C).pathRoot ip.p = M.pathRoot ip.p := rfl
    rw [hr, ih]
    split_ifs
    · rfl
    · cases hp : ip.values.mapM fun y => reorderLeaf order y with
      | none => rfl
      | some parts =>
        simp only [Option.bind_eq_bind, Option.bind_some]
        rw [leaf_full hC, Option.bind_some]
        · rfl
        · rw [length_flatten_mapM _ (2 ^ step) ?_ ip.values parts hp]
          intro y b hb
          rw [length_reorderLeaf order y b hb, length_correctOrder x N step ix order ho]

/-- **C95**: ... and for the rounds. -/
theorem C95_round [Field F] [DecidableEq F] [DecidableEq Root] (hC : C.Lawful)
    (M : MerkleLib W Tree Root Path) (prm : FriParams F) (alphas : List F) (step : Nat) (root : Root)
    (rp : FriRoundProof F Path) (w : FriWalk F) :
    friRoundData C M prm alphas step root rp w =
      friRound (M.onValues C) prm alphas step root rp w := by
  unfold friRoundData friRound
  have hr : (M.onValues C).pathRoot rp.p = M.pathRoot rp.p := rfl
  rw [hr]
  split_ifs
  · rfl
  · congr 1
    funext D
    congr 1
    funext p
    obtain ⟨s, ix⟩ := p
    simp only
    cases ho : correctOrder w.xIndex w.domainSize step ix with
    | none => rfl
    | some order =>
      simp only [Option.bind_eq_bind, Option.bind_some]
      cases hv : reorderLeaf order w.y with
      | none => rfl
      | some values =>
        simp only [Option.bind_some]
        rw [leaf_full hC, Option.bind_some]
        · rfl
        · rw [length_reorderLeaf order w.y values hv, length_correctOrder _ _ _ ix order ho]

/-! ## examples -/

/-- two bytes for an element of the field with five elements -/
def exLeafCodec : LeafCodec (ZMod 5) (Fin 256) where
  len := 2
  enc := fun x => [0, ⟨x.val, lt_trans (ZMod.val_lt x) (by norm_num)⟩]
  zero := 0

theorem exLeafCodec_lawful : exLeafCodec.Lawful where
  pos := by decide
  length := fun _ => rfl
  injective := by decide +kernel

example : verifierLeaf exLeafCodec 3 [3, 4] = some [0, 3, 0, 4, 0, 0] ∧
    verifierLeaf exLeafCodec 1 [3, 4] = none := by decide +kernel

example : (LeafConsumer.new exLeafCodec 2).data = [0, 0, 0, 0] := by decide +kernel

/-- going back to the beginning does not empty the buffer -/
example : ([.consume 3, .consume 4, .reset, .consume 1] : List (LeafOp (ZMod 5))).foldlM
      (fun k op => op.apply exLeafCodec k) (LeafConsumer.new exLeafCodec 2) =
    some ⟨[0, 1, 0, 4], some 2⟩ := by rfl

/-- a tree over bytes without collisions, and the leaves of one polynomial on four points -/
example : friLeafData exLeafCodec [[1, 2, 3, 4]] 4 1 = some [[0, 1, 0, 3], [0, 2, 0, 4]] := by
  decide +kernel

example : correctOrder 1 4 1 [(1, 3)] = some [(0, 0)] := by decide +kernel

end Crypto3Zk
