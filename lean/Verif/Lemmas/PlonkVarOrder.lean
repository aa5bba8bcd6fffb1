import Verif.Model.PlonkVariable
import Mathlib.Data.Prod.Lex
import Mathlib.Algebra.Order.Ring.Int

/-!
# The order of `plonk_variable` as a linear order
-/

namespace Crypto3Zk
namespace PlonkVar

/-- lexicographic key -/
def key (a : PlonkVar) : ℕ ×ₗ ℤ ×ₗ ℕ ×ₗ ℕ :=
  toLex (a.index, toLex (a.rotation, toLex (a.type.code, a.relative.toNat)))

theorem code_inj {a b : ColumnType} (h : a.code = b.code) : a = b := by
  cases a <;> cases b <;> simp_all [ColumnType.code]

theorem key_inj : Function.Injective key := by
  intro a b h
  obtain ⟨i, r, l, t⟩ := a; obtain ⟨i', r', l', t'⟩ := b
  simp only [key, EmbeddingLike.apply_eq_iff_eq, Prod.mk.injEq] at h
  obtain ⟨rfl, rfl, h3, h4⟩ := h
  have := code_inj h3
  subst this
  have : l = l' := by cases l <;> cases l' <;> simp_all
  subst this
  rfl

end PlonkVar

/-- the order of `plonk_variable` as a Lean linear order, so that the expression theorems apply to
`expression<plonk_variable>`. -/
instance : LinearOrder PlonkVar := LinearOrder.lift' PlonkVar.key PlonkVar.key_inj

end Crypto3Zk
