import Verif.Spec.KimchiPedersen
import Mathlib.Data.List.GetD
import Mathlib.Tactic.Ring
import Mathlib.Tactic.Module
import Mathlib.Tactic.Abel
import Mathlib.Algebra.BigOperators.Group.List.Basic

/-!
# Linear combinations of lists

`lin xs ms` is `Σ xsᵢ • msᵢ`.
-/

set_option linter.unusedSectionVars false

namespace Crypto3Zk

variable {F : Type} [Field F] {M : Type} [AddCommGroup M] [Module F M]

@[simp] theorem lin_nil_left (ms : List M) : lin ([] : List F) ms = 0 := by cases ms <;> rfl
@[simp] theorem lin_nil_right (xs : List F) : lin xs ([] : List M) = 0 := by cases xs <;> rfl
@[simp] theorem lin_cons (x : F) (xs : List F) (m : M) (ms : List M) :
    lin (x :: xs) (m :: ms) = x • m + lin xs ms := rfl

theorem lin_eq : ∀ (xs : List F) (ms : List M), (List.zipWith (fun g x => x • g) ms xs).sum = lin xs ms
  | [], ms => by cases ms <;> simp
  | x :: xs, [] => by simp
  | x :: xs, m :: ms => by simp [lin_eq xs ms]

theorem multiexp_lin (ms : List M) (xs : List F) (h : ms.length = xs.length) :
    multiexp ms xs = some (lin xs ms) := by
  rw [multiexp, if_pos h, lin_eq]

theorem innerProd_lin : ∀ a b : List F, innerProd a b = lin a b
  | [], b => by cases b <;> simp [innerProd]
  | x :: a, [] => by simp [innerProd]
  | x :: a, y :: b => by
    have := innerProd_lin a b
    rw [innerProd] at this ⊢
    simp [this]

theorem lin_append : ∀ (xs xs' : List F) (ms : List M), xs.length ≤ ms.length →
    lin (xs ++ xs') ms = lin xs ms + lin xs' (ms.drop xs.length)
  | [], xs', ms, _ => by simp
  | x :: xs, xs', [], h => by simp at h
  | x :: xs, xs', m :: ms, h => by
    rw [List.cons_append, lin_cons, lin_append xs xs' ms (by simpa using h), lin_cons, List.length_cons,
      List.drop_succ_cons, add_assoc]

theorem lin_append' : ∀ (xs xs' : List F) (ms ms' : List M), xs.length = ms.length →
    lin (xs ++ xs') (ms ++ ms') = lin xs ms + lin xs' ms'
  | [], xs', ms, ms', h => by
    have : ms = [] := List.length_eq_zero_iff.mp h.symm
    simp [this]
  | x :: xs, xs', [], ms', h => by simp at h
  | x :: xs, xs', m :: ms, ms', h => by
    rw [List.cons_append, List.cons_append, lin_cons, lin_append' xs xs' ms ms' (by simpa using h),
      lin_cons, add_assoc]

/-- elements beyond the scalars do not count -/
theorem lin_right_append : ∀ (xs : List F) (ms ms' : List M), xs.length ≤ ms.length →
    lin xs (ms ++ ms') = lin xs ms
  | [], ms, ms', _ => by simp
  | x :: xs, [], ms', h => by simp at h
  | x :: xs, m :: ms, ms', h => by
    rw [List.cons_append, lin_cons, lin_right_append xs ms ms' (by simpa using h), lin_cons]

theorem lin_right_take (xs : List F) (ms : List M) : lin xs (ms.take xs.length) = lin xs ms := by
  induction xs generalizing ms with
  | nil => simp
  | cons x xs ih => cases ms with
    | nil => simp
    | cons m ms => rw [List.length_cons, List.take_succ_cons, lin_cons, ih, lin_cons]

theorem lin_zero_left (k : Nat) (ms : List M) : lin (List.replicate k (0 : F)) ms = 0 := by
  induction k generalizing ms with
  | zero => simp
  | succ k ih => cases ms with
    | nil => simp
    | cons m ms => rw [List.replicate_succ, lin_cons, ih, zero_smul, add_zero]

theorem lin_zero_right (xs : List F) (k : Nat) : lin xs (List.replicate k (0 : M)) = 0 := by
  induction k generalizing xs with
  | zero => simp
  | succ k ih => cases xs with
    | nil => simp
    | cons x xs => rw [List.replicate_succ, lin_cons, ih, smul_zero, add_zero]

theorem lin_pad (xs : List F) (ms : List M) (k j : Nat) (h : xs.length = ms.length) :
    lin (xs ++ List.replicate k 0) (ms ++ List.replicate j 0) = lin xs ms := by
  rw [lin_append' _ _ _ _ h, lin_zero_left, add_zero]

theorem lin_split (xs : List F) (ms : List M) (k : Nat) :
    lin xs ms = lin (xs.take k) (ms.take k) + lin (xs.drop k) (ms.drop k) := by
  induction k generalizing xs ms with
  | zero => simp
  | succ k ih => cases xs with
    | nil => simp
    | cons x xs => cases ms with
      | nil => simp
      | cons m ms => simp only [List.take_succ_cons, List.drop_succ_cons, lin_cons, ih xs ms, add_assoc]

/-- folding the scalars -/
theorem lin_fold_left (c : F) : ∀ (hi lo : List F) (ms : List M), hi.length = lo.length →
    lin (List.zipWith (fun x y => x * c + y) hi lo) ms = c • lin hi ms + lin lo ms
  | [], [], ms, _ => by simp
  | x :: hi, y :: lo, [], _ => by simp
  | x :: hi, y :: lo, m :: ms, h => by
    rw [List.zipWith_cons_cons, lin_cons, lin_fold_left c hi lo ms (by simpa using h), lin_cons, lin_cons]
    module
  | [], y :: lo, _, h => by simp at h
  | x :: hi, [], _, h => by simp at h

/-- folding the elements -/
theorem lin_fold_right (c : F) : ∀ (xs : List F) (hi lo : List M), hi.length = lo.length →
    lin xs (List.zipWith (fun x y => c • x + y) hi lo) = c • lin xs hi + lin xs lo
  | [], hi, lo, _ => by simp
  | a :: xs, [], [], _ => by simp
  | a :: xs, x :: hi, y :: lo, h => by
    rw [List.zipWith_cons_cons, lin_cons, lin_fold_right c xs hi lo (by simpa using h), lin_cons, lin_cons]
    module
  | _ :: _, [], y :: lo, h => by simp at h
  | _ :: _, x :: hi, [], h => by simp at h

theorem lin_map_mul (c : F) : ∀ (xs : List F) (ms : List M),
    lin (xs.map fun x => x * c) ms = c • lin xs ms
  | [], ms => by simp
  | x :: xs, [] => by simp
  | x :: xs, m :: ms => by
    rw [List.map_cons, lin_cons, lin_map_mul c xs ms, lin_cons]
    module

theorem lin_add_left : ∀ (a b : List F) (ms : List M), a.length = b.length →
    lin (List.zipWith (· + ·) a b) ms = lin a ms + lin b ms
  | [], [], ms, _ => by simp
  | x :: a, y :: b, [], _ => by simp
  | x :: a, y :: b, m :: ms, h => by
    rw [List.zipWith_cons_cons, lin_cons, lin_add_left a b ms (by simpa using h), lin_cons, lin_cons]
    module
  | [], y :: lo, _, h => by simp at h
  | x :: hi, [], _, h => by simp at h

theorem addInto_length (a : List F) (off : Nat) (s : F) (seg : List F) :
    (addInto a off s seg).length = a.length := by simp [addInto]

theorem addInto_eq (a : List F) (off : Nat) (s : F) (seg : List F) (h : off + seg.length ≤ a.length) :
    addInto a off s seg = List.zipWith (· + ·) a (List.replicate off 0 ++ (seg.map fun x => x * s) ++
      List.replicate (a.length - (off + seg.length)) 0) := by
  apply List.ext_getElem
  · simp [addInto]
    omega
  · intro i h1 h2
    rw [addInto_length] at h1
    simp only [addInto, List.getElem_mapIdx, List.getElem_zipWith]
    by_cases h3 : i < off
    · rw [if_neg (by omega), List.getElem_append_left (by simp; omega),
        List.getElem_append_left (by simpa using h3)]
      simp
    · by_cases h4 : i < off + seg.length
      · rw [if_pos ⟨by omega, h4⟩, List.getElem_append_left (by simp; omega),
          List.getElem_append_right (by simp; omega)]
        simp only [List.length_replicate, List.getElem_map]
        rw [List.getD_eq_getElem _ _ (by omega)]
      · rw [if_neg (by omega), List.getElem_append_right (by simp; omega)]
        simp

/-- adding a scaled segment changes a linear combination by that of the segment -/
theorem lin_addInto (a : List F) (off : Nat) (s : F) (seg : List F) (ms : List M)
    (h : off + seg.length ≤ a.length) (hm : a.length ≤ ms.length) :
    lin (addInto a off s seg) ms = lin a ms + s • lin seg (ms.drop off) := by
  rw [addInto_eq a off s seg h, lin_add_left _ _ _ (by simp; omega), List.append_assoc,
    lin_append _ _ _ (by simp; omega), lin_zero_left, zero_add, lin_append _ _ _ (by simp; omega),
    lin_zero_left, add_zero, lin_map_mul, List.length_replicate]

theorem powSum_append (x : F) : ∀ vs ws : List M,
    powSum x (vs ++ ws) = powSum x vs + x ^ vs.length • powSum x ws
  | [], ws => by simp [powSum]
  | v :: vs, ws => by
    rw [List.cons_append, powSum, powSum_append x vs ws, powSum, List.length_cons, pow_succ]
    module

theorem powSum_zipAdd (x : F) : ∀ vs ws : List M, vs.length = ws.length →
    powSum x (List.zipWith (· + ·) vs ws) = powSum x vs + powSum x ws
  | [], [], _ => by simp [powSum]
  | v :: vs, w :: ws, h => by
    rw [List.zipWith_cons_cons, powSum, powSum_zipAdd x vs ws (by simpa using h), powSum, powSum]
    module
  | [], w :: ws, h => by simp at h
  | v :: vs, [], h => by simp at h

theorem powSum_smul (x : F) (m : M) : ∀ cs : List F,
    powSum x (cs.map fun c => c • m) = powSum x cs • m
  | [] => by simp [powSum]
  | c :: cs => by
    rw [List.map_cons, powSum, powSum_smul x m cs, powSum, smul_eq_mul]
    module

theorem horner_powSum (p : List F) (x : F) : hornerEval p x = powSum x p := by
  induction p with
  | nil => rfl
  | cons c p ih =>
    rw [powSum, smul_eq_mul, ← ih]
    rfl

end Crypto3Zk
