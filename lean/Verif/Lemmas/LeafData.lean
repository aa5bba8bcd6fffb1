import Verif.Spec.LeafData
import Verif.Lemmas.FRI
import Verif.Lemmas.FRISound
import Mathlib.Tactic.Ring

/-!
# Lemmas on the leaves of the Merkle trees as data
-/

set_option linter.unusedSectionVars false

namespace Crypto3Zk

variable {F W Tree Root Path : Type} {C : LeafCodec F W}

theorem LeafCodec.encode_nil : C.encode [] = [] := rfl

theorem LeafCodec.encode_cons (x : F) (xs : List F) : C.encode (x :: xs) = C.enc x ++ C.encode xs := rfl

theorem LeafCodec.encode_append (xs ys : List F) : C.encode (xs ++ ys) = C.encode xs ++ C.encode ys := by
  simp [LeafCodec.encode]

theorem LeafCodec.length_encode (hC : C.Lawful) (xs : List F) :
    (C.encode xs).length = xs.length * C.len := by
  induction xs with
  | nil => simp [LeafCodec.encode_nil]
  | cons x xs ih => rw [LeafCodec.encode_cons, List.length_append, hC.length, ih, List.length_cons]; ring

theorem LeafCodec.encode_injective (hC : C.Lawful) : Function.Injective C.encode := by
  intro xs
  induction xs with
  | nil =>
    intro ys h
    cases ys with
    | nil => rfl
    | cons y ys =>
      have := congrArg List.length h
      rw [LeafCodec.length_encode hC, LeafCodec.length_encode hC, List.length_cons] at this
      have := hC.pos
      simp at *
      omega
  | cons x xs ih =>
    intro ys h
    cases ys with
    | nil =>
      have := congrArg List.length h
      rw [LeafCodec.length_encode hC, LeafCodec.length_encode hC, List.length_cons] at this
      have := hC.pos
      simp at *
      omega
    | cons y ys =>
      rw [LeafCodec.encode_cons, LeafCodec.encode_cons] at h
      obtain ⟨h1, h2⟩ := List.append_inj h (by rw [hC.length, hC.length])
      rw [hC.injective h1, ih h2]

/-- what consuming writes -/
theorem consume_fold (hC : C.Lawful) (xs : List F) : ∀ (pre rest : List W),
    xs.foldlM (LeafConsumer.consume C) ⟨pre ++ rest, some pre.length⟩ =
      if xs.length * C.len ≤ rest.length then
        some ⟨pre ++ C.encode xs ++ rest.drop (xs.length * C.len),
          some (pre.length + xs.length * C.len)⟩
      else none := by
  induction xs with
  | nil => intro pre rest; simp [LeafCodec.encode_nil]
  | cons x xs ih =>
    intro pre rest
    have hm : (xs.length + 1) * C.len = xs.length * C.len + C.len := by ring
    rw [List.foldlM_cons]
    by_cases h1 : C.len ≤ rest.length
    · have hstep : LeafConsumer.consume C ⟨pre ++ rest, some pre.length⟩ x =
          some ⟨(pre ++ C.enc x) ++ rest.drop C.len, some (pre ++ C.enc x).length⟩ := by
        unfold LeafConsumer.consume
        simp only [Option.bind_eq_bind, Option.bind_some, List.length_append, hC.length]
        rw [if_pos (by omega)]
        simp [List.drop_append]
      rw [hstep]
      simp only [Option.bind_eq_bind, Option.bind_some]
      rw [ih]
      simp only [List.length_drop, List.length_cons, List.length_append, hC.length]
      by_cases h2 : xs.length * C.len ≤ rest.length - C.len
      · rw [if_pos h2, if_pos (by omega), LeafCodec.encode_cons, List.drop_drop]
        simp only [List.append_assoc]
        rw [show C.len + xs.length * C.len = (xs.length + 1) * C.len by rw [hm]; omega,
          show pre.length + C.len + xs.length * C.len = pre.length + (xs.length + 1) * C.len by
            rw [hm]; omega]
      · rw [if_neg h2, if_neg (by omega)]
    · have hstep : LeafConsumer.consume C ⟨pre ++ rest, some pre.length⟩ x = none := by
        unfold LeafConsumer.consume
        simp only [Option.bind_eq_bind, Option.bind_some, List.length_append]
        rw [if_neg (by omega)]
      rw [hstep]
      simp only [Option.bind_eq_bind, Option.bind_none, List.length_cons]
      rw [if_neg (by omega)]

theorem verifierLeaf_eq (hC : C.Lawful) (size : Nat) (xs : List F) :
    verifierLeaf C size xs =
      if xs.length ≤ size then
        some (C.encode xs ++ List.replicate ((size - xs.length) * C.len) C.zero)
      else none := by
  have h := consume_fold hC xs [] (List.replicate (size * C.len) C.zero)
  simp only [List.nil_append, List.length_nil, List.length_replicate, Nat.zero_add,
    List.drop_replicate] at h
  unfold verifierLeaf LeafConsumer.new LeafConsumer.reset
  simp only [h]
  by_cases hx : xs.length ≤ size
  · rw [if_pos hx, if_pos (Nat.mul_le_mul_right _ hx), Nat.sub_mul]
    rfl
  · rw [if_neg hx, if_neg]
    · rfl
    · intro hc
      exact hx (Nat.le_of_mul_le_mul_right hc hC.pos)

theorem proverLeaf_eq (C : LeafCodec F W) (size : Nat) (xs : List F) :
    proverLeaf C size xs = verifierLeaf C size xs := rfl

theorem leaf_full (hC : C.Lawful) (size : Nat) (xs : List F) (h : xs.length = size) :
    verifierLeaf C size xs = some (C.encode xs) := by
  rw [verifierLeaf_eq hC, if_pos h.le, h]
  simp

theorem length_indexLoop (N s : Nat) (d : Nat) : ∀ (fuel base k : Nat) (acc : List (Nat × Nat)),
    k + d = s → d ≤ fuel → acc.length = 2 ^ k →
    (indexLoop N (2 ^ s) fuel base (2 ^ k) acc).length = 2 ^ s := by
  induction d with
  | zero =>
    intro fuel base k acc hk _ hacc
    obtain rfl : k = s := by omega
    cases fuel with
    | zero => exact hacc
    | succ fuel => simp [indexLoop, hacc]
  | succ d ih =>
    intro fuel base k acc hk hf hacc
    obtain ⟨fuel, rfl⟩ : ∃ m, fuel = m + 1 := ⟨fuel - 1, by omega⟩
    have hlt : 2 ^ k < 2 ^ s := Nat.pow_lt_pow_right (by norm_num) (by omega)
    rw [indexLoop, if_pos (by omega), ← pow_succ]
    apply ih fuel _ (k + 1) _ (by omega) (by omega)
    simp [hacc, pow_succ]
    omega

theorem length_orderLoop (N s : Nat) (d : Nat) : ∀ (fuel base k : Nat) (acc : List Nat),
    k + d = s → d ≤ fuel → acc.length = 2 ^ k →
    (orderLoop N (2 ^ s) fuel base (2 ^ k) acc).length = 2 ^ s := by
  induction d with
  | zero =>
    intro fuel base k acc hk _ hacc
    obtain rfl : k = s := by omega
    cases fuel with
    | zero => exact hacc
    | succ fuel => simp [orderLoop, hacc]
  | succ d ih =>
    intro fuel base k acc hk hf hacc
    obtain ⟨fuel, rfl⟩ : ∃ m, fuel = m + 1 := ⟨fuel - 1, by omega⟩
    have hlt : 2 ^ k < 2 ^ s := Nat.pow_lt_pow_right (by norm_num) (by omega)
    rw [orderLoop, if_pos (by omega), ← pow_succ]
    apply ih fuel _ (k + 1) _ (by omega) (by omega)
    simp [hacc, pow_succ]
    omega

theorem length_cosetIndices (N x s : Nat) (ix : List (Nat × Nat))
    (h : cosetIndices x N s = some ix) : 2 * ix.length = 2 ^ s := by
  cases s with
  | zero => simp [cosetIndices] at h
  | succ s =>
    have hpos : 0 < 2 ^ s := Nat.pow_pos (by norm_num)
    simp only [cosetIndices, two_pow_succ_half, if_neg hpos.ne', Option.some.injEq] at h
    rw [← h, pow_succ, mul_comm]
    congr 1
    exact length_indexLoop N s s (2 ^ s) _ 0 _ (by omega) (Nat.lt_two_pow_self).le rfl

theorem length_correctOrder (x N s : Nat) (ix order : List (Nat × Nat))
    (h : correctOrder x N s ix = some order) : 2 * order.length = 2 ^ s := by
  unfold correctOrder at h
  cases s with
  | zero => simp at h
  | succ s =>
    have hpos : 0 < 2 ^ s := Nat.pow_pos (by norm_num)
    simp only [two_pow_succ_half] at h
    split_ifs at h with hc
    obtain ⟨x0, -, h⟩ := Option.bind_eq_some_iff.1 h
    rw [(mapM_getElem _ _ _ h).1, pow_succ, mul_comm]
    congr 1
    exact length_orderLoop N s s (2 ^ s) _ 0 _ (by omega) (Nat.lt_two_pow_self).le rfl

theorem length_flatten_mapM {α β : Type} (f : α → Option (List β)) (c : Nat)
    (hf : ∀ a b, f a = some b → b.length = c) : ∀ (l : List α) (r : List (List β)),
    l.mapM f = some r → r.flatten.length = c * l.length := by
  intro l
  induction l with
  | nil => intro r h; simp at h; subst h; simp
  | cons a l ih =>
    intro r h
    rw [List.mapM_cons] at h
    obtain ⟨b, hb, h⟩ := Option.bind_eq_some_iff.1 h
    obtain ⟨r', hr', h⟩ := Option.bind_eq_some_iff.1 h
    simp only [Option.pure_def, Option.some.injEq] at h
    subst h
    rw [List.flatten_cons, List.length_append, hf a b hb, ih r' hr', List.length_cons]
    ring

theorem length_leafValues (v : List F) (ix : List (Nat × Nat)) (xs : List F)
    (h : leafValues v ix = some xs) : xs.length = 2 * ix.length := by
  unfold leafValues at h
  obtain ⟨vs, hvs, h⟩ := Option.bind_eq_some_iff.1 h
  simp only [Option.some.injEq] at h
  rw [← h]
  refine length_flatten_mapM _ 2 ?_ ix vs hvs
  intro p b hb
  obtain ⟨_, _, hb⟩ := Option.bind_eq_some_iff.1 hb
  obtain ⟨_, _, hb⟩ := Option.bind_eq_some_iff.1 hb
  simp only [Option.some.injEq] at hb
  rw [← hb]; rfl

theorem length_reorderLeaf (order : List (Nat × Nat)) (y : List (F × F)) (xs : List F)
    (h : reorderLeaf order y = some xs) : xs.length = 2 * order.length := by
  unfold reorderLeaf at h
  obtain ⟨vs, hvs, h⟩ := Option.bind_eq_some_iff.1 h
  simp only [Option.some.injEq] at h
  rw [← h]
  refine length_flatten_mapM _ 2 ?_ order vs hvs
  intro p b hb
  obtain ⟨_, _, hb⟩ := Option.bind_eq_some_iff.1 hb
  simp only [Option.some.injEq] at hb
  rw [← hb]; rfl

theorem mapM_comp_map {α β γ : Type} (f : α → Option β) (g : β → γ) (l : List α) :
    l.mapM (fun a => (f a).map g) = (l.mapM f).map (List.map g) := by
  induction l with
  | nil => rfl
  | cons a l ih =>
    rw [List.mapM_cons, List.mapM_cons, ih]
    cases f a <;> cases l.mapM f <;> rfl

/-- the leaves are the data of the leaves of values -/
theorem friLeafData_eq (hC : C.Lawful) (vs : List (List F)) (N step : Nat) :
    friLeafData C vs N step = (friLeaves vs N step).map (List.map C.encode) := by
  unfold friLeafData friLeaves
  rw [← mapM_comp_map]
  apply mapM_congr
  intro x _
  cases hix : cosetIndices x N step with
  | none => rfl
  | some ix =>
    simp only [Option.bind_eq_bind, Option.bind_some]
    cases hp : vs.mapM fun v => leafValues v ix with
    | none => rfl
    | some parts =>
      simp only [Option.bind_some, Option.map_some]
      rw [proverLeaf_eq]
      apply leaf_full hC
      rw [length_flatten_mapM _ (2 ^ step) ?_ vs parts hp]
      intro v b hb
      rw [length_leafValues v ix b hb, length_cosetIndices N x step ix hix]

end Crypto3Zk
