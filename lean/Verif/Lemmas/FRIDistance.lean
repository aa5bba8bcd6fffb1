import Verif.Spec.FRIDistance
import Verif.Lemmas.FRISound
import Verif.Lemmas.PolyOps
import Verif.Lemmas.PermutationArg
import Verif.Lemmas.FftExample
import Verif.Props.FRISound
import Mathlib.Data.Finset.Card
import Mathlib.Data.Finset.Prod

/-!
# FRI: distances under folding
-/

namespace Crypto3Zk

set_option linter.unusedSectionVars false

open Polynomial

variable {F : Type} [Field F] [DecidableEq F] {Tree Root Path S : Type} {L : FftLib F} {A : Nat}

theorem FriNear.mono {m : Nat} {g : List F} {b e e' : Nat} (h : FriNear L m g b e) (he : e ≤ e') :
    FriNear L m g b e' := by
  obtain ⟨u, h1, h2⟩ := h
  exact ⟨u, h1, h2.trans he⟩

/-- A polynomial from its even and its odd part. -/
theorem exists_weave : ∀ (b : Nat) (ev od : List F), ev.length ≤ b → od.length ≤ b →
    ∃ w : List F, w.length ≤ 2 * b ∧ ∀ x, evalPoly w x = evalPoly ev (x * x) + x * evalPoly od (x * x)
  | 0, ev, od, h1, h2 => by
    rw [Nat.le_zero, List.length_eq_zero_iff] at h1 h2
    subst h1 h2
    exact ⟨[], by simp, by simp⟩
  | b + 1, ev, od, h1, h2 => by
    obtain ⟨w, hw, he⟩ := exists_weave b ev.tail od.tail (by simp; omega) (by simp; omega)
    refine ⟨ev.headD 0 :: od.headD 0 :: w, by simp; omega, fun x => ?_⟩
    have h : ∀ (l : List F) (y : F), evalPoly l y = l.headD 0 + y * evalPoly l.tail y := by
      intro l y
      cases l <;> simp
    rw [h ev, h od, evalPoly_cons, evalPoly_cons, he]
    ring

/-- If the foldings with two different challenges agree, at the square of `x`, with `u` and `u'`, then the
function agrees at `x` with the polynomial woven from them. -/
theorem weave_agrees (h2 : (2 : F) ≠ 0) (a a' : F) (ha : a ≠ a') (g u u' : List F) (x : F) (hx : x ≠ 0)
    (h : evalPoly (foldList a g) (x * x) = evalPoly u (x * x))
    (h' : evalPoly (foldList a' g) (x * x) = evalPoly u' (x * x)) :
    evalPoly g x =
      (evalPoly u (x * x) - a * ((a - a')⁻¹ * (evalPoly u (x * x) - evalPoly u' (x * x)))) +
        x * ((a - a')⁻¹ * (evalPoly u (x * x) - evalPoly u' (x * x))) := by
  rw [foldList_eval_div h2 _ _ _ hx] at h h'
  rw [← h, ← h']
  unfold foldedValue
  have hs : a - a' ≠ 0 := sub_ne_zero.mpr ha
  field_simp
  ring

theorem card_mod_mem (m : Nat) (T : Finset Nat) :
    ((Finset.range (2 ^ (m + 1))).filter fun x => x % 2 ^ m ∈ T).card ≤ 2 * T.card := by
  have hsub : ((Finset.range (2 ^ (m + 1))).filter fun x => x % 2 ^ m ∈ T) ⊆
      T ∪ T.image (· + 2 ^ m) := by
    intro x hx
    rw [Finset.mem_filter, Finset.mem_range, pow_succ] at hx
    rw [Finset.mem_union, Finset.mem_image]
    by_cases hlt : x < 2 ^ m
    · left
      rw [Nat.mod_eq_of_lt hlt] at hx
      exact hx.2
    · right
      refine ⟨x % 2 ^ m, hx.2, ?_⟩
      have : x % 2 ^ m = x - 2 ^ m := by
        rw [Nat.mod_eq_sub_mod (by omega), Nat.mod_eq_of_lt (by omega)]
      omega
  refine (Finset.card_le_card hsub).trans ((Finset.card_union_le _ _).trans ?_)
  have := Finset.card_image_le (s := T) (f := (· + 2 ^ m))
  omega

/-- Two foldings that are near show that the function is near. -/
theorem near_of_two (hL : L.Lawful A) (m : Nat) (hm : m < A) (g : List F) (b e e' : Nat) (a a' : F)
    (ha : a ≠ a') (h : FriNear L m (foldList a g) b e) (h' : FriNear L m (foldList a' g) b e') :
    FriNear L (m + 1) g (2 * b) (2 * (e + e')) := by
  obtain ⟨u, hu, hmu⟩ := h
  obtain ⟨u', hu', hmu'⟩ := h'
  let od := polyScale (a - a')⁻¹ (polySub u u')
  let ev := polySub u (polyScale a od)
  have hod : od.length ≤ b := by simp only [od, length_polyScale, length_polySub]; omega
  have hev : ev.length ≤ b := by simp only [ev, length_polySub, length_polyScale]; omega
  obtain ⟨w, hw, hwe⟩ := exists_weave b ev od hev hod
  refine ⟨w, hw, ?_⟩
  have hsub : friMisses L (m + 1) g w ⊆ (Finset.range (2 ^ (m + 1))).filter fun x =>
      x % 2 ^ m ∈ friMisses L m (foldList a g) u ∪ friMisses L m (foldList a' g) u' := by
    intro x hx
    rw [friMisses, Finset.mem_filter] at hx
    rw [Finset.mem_filter]
    refine ⟨hx.1, ?_⟩
    by_contra hno
    rw [Finset.mem_union, not_or] at hno
    have hlt : x % 2 ^ m < 2 ^ m := Nat.mod_lt _ (Nat.pow_pos (by norm_num))
    simp only [friMisses, Finset.mem_filter, Finset.mem_range, hlt, true_and, not_not,
      elem_mod hL m (by omega)] at hno
    rw [← elem_sq hL m hm x] at hno
    apply hx.2
    rw [hwe, weave_agrees hL.two_ne a a' ha g u u' _ (elem_ne_zero hL _ (by omega) _) hno.1 hno.2]
    simp only [ev, od, evalPoly_polySub, evalPoly_polyScale]
  refine (Finset.card_le_card hsub).trans ((card_mod_mem m _).trans ?_)
  have := Finset.card_union_le (friMisses L m (foldList a g) u) (friMisses L m (foldList a' g) u')
  omega

/-- Going back up through the challenges of a round. -/
theorem near_up (hL : L.Lawful A) : ∀ (as : List F) (m D : Nat) (o : List F) (e : Nat), m ≤ A →
    as.length ≤ m → as.length ≤ D →
    FriNear L (m - as.length) (foldAll as o) (2 ^ (D - as.length)) e →
    (∀ k a, as[k]? = some a → a ∉ friLucky L (m - (k + 1)) (foldAll (as.take k) o) (2 ^ (D - (k + 1)))) →
    FriNear L m o (2 ^ D) (4 ^ as.length * e)
  | [], m, D, o, e, _, _, _, h, _ => by simpa [foldAll] using h
  | a :: as, m, D, o, e, hm, h1, h2, h, hl => by
    simp only [List.length_cons] at h1 h2 h ⊢
    obtain ⟨m, rfl⟩ : ∃ k, m = k + 1 := ⟨m - 1, by omega⟩
    obtain ⟨D, rfl⟩ : ∃ k, D = k + 1 := ⟨D - 1, by omega⟩
    rw [show m + 1 - (as.length + 1) = m - as.length by omega,
      show D + 1 - (as.length + 1) = D - as.length by omega, foldAll_cons] at h
    have ih := near_up hL as m D (foldList a o) e (by omega) (by omega) (by omega) h (by
      intro k a' hk
      have := hl (k + 1) a' (by simpa using hk)
      rw [List.take_succ_cons, foldAll_cons, show m + 1 - (k + 1 + 1) = m - (k + 1) by omega,
        show D + 1 - (k + 1 + 1) = D - (k + 1) by omega] at this
      exact this)
    have h0 := hl 0 a rfl
    simp only [zero_add, Nat.add_sub_cancel, List.take_zero] at h0
    by_contra hno
    apply h0
    refine ⟨4 ^ as.length * e, ih, ?_⟩
    intro hn
    apply hno
    rw [pow_succ' 2 D]
    rw [show 4 ^ (as.length + 1) * e = 4 * (4 ^ as.length * e) by rw [pow_succ]; ring]
    exact hn

/-- Points of a smaller domain that spoil all points above them. -/
theorem card_spoilt (n t : Nat) (ht : t ≤ n) (C B : Finset Nat) (hC : ∀ y ∈ C, y < 2 ^ (n - t))
    (h : ∀ x < 2 ^ n, x % 2 ^ (n - t) ∈ C → x ∈ B) : C.card * 2 ^ t ≤ B.card := by
  have hpos : 0 < 2 ^ (n - t) := Nat.pow_pos (by norm_num)
  have hn : 2 ^ n = 2 ^ (n - t) * 2 ^ t := by rw [← pow_add]; congr 1; omega
  rw [← Finset.card_range (2 ^ t), ← Finset.card_product]
  refine Finset.card_le_card_of_injOn (fun p => p.1 + 2 ^ (n - t) * p.2) ?_ ?_
  · rintro ⟨y, j⟩ hp
    simp only [Finset.coe_product, Set.mem_prod, Finset.mem_coe, Finset.mem_range] at hp
    have hy := hC y hp.1
    apply h
    · rw [hn]
      calc y + 2 ^ (n - t) * j < 2 ^ (n - t) + 2 ^ (n - t) * j := by omega
        _ = 2 ^ (n - t) * (j + 1) := by ring
        _ ≤ 2 ^ (n - t) * 2 ^ t := Nat.mul_le_mul_left _ hp.2
    · rw [Nat.add_mul_mod_self_left, Nat.mod_eq_of_lt hy]
      exact hp.1
  · rintro ⟨y, j⟩ hp ⟨y', j'⟩ hp' he
    simp only [Finset.coe_product, Set.mem_prod, Finset.mem_coe, Finset.mem_range] at hp hp'
    simp only at he
    have h1 := congrArg (· % 2 ^ (n - t)) he
    simp only [Nat.add_mul_mod_self_left, Nat.mod_eq_of_lt (hC _ hp.1),
      Nat.mod_eq_of_lt (hC _ hp'.1)] at h1
    subst h1
    have h2 := Nat.eq_of_mul_eq_mul_left hpos (Nat.add_left_cancel he)
    rw [h2]

/-- A factor by which the distance can shrink in the remaining rounds. -/
def friWeight : List Nat → Nat
  | [] => 0
  | s :: rest => 2 ^ s * (1 + friWeight rest)

theorem friWeight_le : ∀ steps : List Nat, (∀ s ∈ steps, 1 ≤ s) →
    friWeight steps + 2 ≤ 2 ^ (steps.sum + 1)
  | [], _ => by simp [friWeight]
  | s :: rest, h => by
    have ih := friWeight_le rest fun s hs => h s (by simp [hs])
    have hs : 2 ^ 1 ≤ 2 ^ s := Nat.pow_le_pow_right (by norm_num) (h s (by simp))
    rw [friWeight, List.sum_cons, Nat.add_assoc, pow_add]
    have := Nat.mul_le_mul_left (2 ^ s) ih
    have e : 2 ^ s * (1 + friWeight rest) + 2 ^ s = 2 ^ s * (friWeight rest + 2) := by ring
    omega

/-- A function that differs from a near one in few points is near. -/
theorem near_trans {m : Nat} {g o : List F} {b e : Nat} (h : FriNear L m o b e) :
    FriNear L m g b (e + (friMisses L m g o).card) := by
  obtain ⟨u, hu, hm⟩ := h
  refine ⟨u, hu, ?_⟩
  have hsub : friMisses L m g u ⊆ friMisses L m o u ∪ friMisses L m g o := by
    intro x hx
    simp only [friMisses, Finset.mem_union, Finset.mem_filter] at hx ⊢
    by_cases hgo : evalPoly g ((L.domain m).elem x) = evalPoly o ((L.domain m).elem x)
    · left
      rw [← hgo]
      exact hx
    · right
      exact ⟨hx.1, hgo⟩
  refine (Finset.card_le_card hsub).trans ((Finset.card_union_le _ _).trans ?_)
  omega

/-- If the rounds are consistent outside of the points `B`, the first polynomial of the rounds is near
the polynomials allowed. -/
theorem near_rounds (hL : L.Lawful A) (M : MerkleLib F Tree Root Path) (n D : Nat) (hA : n ≤ A)
    (final : List F) (B : Finset Nat) : ∀ (steps : List Nat) (t : Nat) (alphas : List F)
      (roots : List Root) (os : List (List F)), t + steps.sum ≤ n → t + steps.sum ≤ D →
    alphas.length = steps.sum → final.length ≤ 2 ^ (D - (t + steps.sum)) →
    FriOracles L M n steps t roots os → FriSteady L n D steps t alphas os →
    (∀ x < 2 ^ n, x ∉ B → FriFolds L n final x steps t alphas os) →
    ∃ e, FriNear L (n - t) (os.headD final) (2 ^ (D - t)) e ∧ e * 2 ^ t ≤ friWeight steps * B.card
  | [], t, alphas, roots, os, _, _, _, hf, ho, _, _ => by
    rw [FriOracles] at ho
    subst ho
    refine ⟨0, ⟨final, by simpa using hf, ?_⟩, by simp⟩
    simp [friMisses]
  | s :: rest, t, alphas, roots, os, hsum, hD, hal, hf, ho, hst, h => by
    obtain ⟨root, o, leaves, _, hoh, hol, _, _, ho'⟩ := ho
    obtain ⟨o', os, rfl⟩ : ∃ o' os', os = o' :: os' := by
      cases os with
      | nil => simp at hoh
      | cons a b => exact ⟨a, b, rfl⟩
    simp only [List.head?_cons, Option.some.injEq] at hoh
    subst hoh
    simp only [List.sum_cons] at hsum hD hal hf
    simp only [List.tail_cons] at ho'
    obtain ⟨hst0, hst'⟩ := hst
    have hlt : (alphas.take s).length = s := by rw [List.length_take]; omega
    obtain ⟨e, hnear, he⟩ := near_rounds hL M n D hA final B rest (t + s) (alphas.drop s) roots.tail os
      (by omega) (by omega) (by simp [hal]) (by rw [Nat.add_assoc]; exact hf) ho' hst'
      (fun x hx hxB => (h x hx hxB).2)
    set g := foldAll (alphas.take s) o' with hg
    set C := friMisses L (n - (t + s)) g (os.headD final) with hCdef
    have hC : C.card * 2 ^ (t + s) ≤ B.card := by
      refine card_spoilt n (t + s) (by omega) C B ?_ ?_
      · intro y hy
        rw [hCdef, friMisses, Finset.mem_filter, Finset.mem_range] at hy
        exact hy.1
      · intro x hx hxC
        by_contra hxB
        rw [hCdef, friMisses, Finset.mem_filter, elem_mod hL _ (by omega)] at hxC
        exact hxC.2 (h x hx hxB).1
    have hnear' := near_trans (g := g) hnear
    rw [← hCdef] at hnear'
    have hup := near_up hL (alphas.take s) (n - t) (D - t) o' (e + C.card) (by omega) (by omega) (by omega)
      (by
        rw [hlt, show n - t - s = n - (t + s) by omega, show D - t - s = D - (t + s) by omega]
        exact hnear')
      (by
        intro k a hk
        have hks : k < s := by
          have := (List.getElem?_eq_some_iff.mp hk).1
          omega
        rw [List.getElem?_take_of_lt hks] at hk
        have := hst0 k hks a hk
        rw [List.take_take, Nat.min_eq_left hks.le,
          show n - t - (k + 1) = n - (t + k + 1) by omega, show D - t - (k + 1) = D - (t + k + 1) by omega]
        exact this)
    rw [hlt] at hup
    refine ⟨4 ^ s * (e + C.card), by simpa using hup, ?_⟩
    have e1 : 4 ^ s * (e + C.card) * 2 ^ t = 2 ^ s * (e * 2 ^ (t + s) + C.card * 2 ^ (t + s)) := by
      rw [show (4 : Nat) = 2 * 2 by norm_num, mul_pow, pow_add]
      ring
    rw [e1, friWeight, mul_assoc]
    apply Nat.mul_le_mul_left
    rw [add_mul, one_mul]
    omega

end Crypto3Zk
