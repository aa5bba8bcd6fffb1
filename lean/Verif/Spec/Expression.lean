import Verif.Model.Expression
import Verif.Model.PlonkVariable
import Mathlib.Algebra.BigOperators.Group.List.Basic

/-!
# Specification vocabulary for C05-C12
-/

namespace Crypto3Zk

variable {V R : Type*} [LinearOrder V] [CommRing R] [DecidableEq R]

/-- The mathematical value of a term under an assignment of its variables. -/
def Term.value (get : V → R) (t : Term V R) : R := t.coeff * (t.vars.map get).prod

/-- The mathematical value of a sum of terms. -/
def NLC.value (get : V → R) (a : NLC V R) : R := (a.map (Term.value get)).sum

/-- Programs that build a term through the public API. -/
inductive TermProg (V R : Type*) where
  | var (v : V)
  | const (c : R)
  | ofVars (vs : List V) (c : R)
  | mul (s t : TermProg V R)
  | neg (t : TermProg V R)

/-- The term such a program returns. -/
def TermProg.run : TermProg V R → Term V R
  | .var v => Term.ofVar v
  | .const c => Term.ofConst c
  | .ofVars vs c => ⟨vs, c⟩
  | .mul s t => s.run.mul t.run
  | .neg t => t.run.neg

/-- What the program's source text means. -/
def TermProg.denote (get : V → R) : TermProg V R → R
  | .var v => get v
  | .const c => c
  | .ofVars vs c => c * (vs.map get).prod
  | .mul s t => s.denote get * t.denote get
  | .neg t => -t.denote get

/-- Programs that build an expression through the public operators. -/
inductive ExprProg (V R : Type*) where
  | default
  | term (t : TermProg V R)
  | add (a b : ExprProg V R)
  | sub (a b : ExprProg V R)
  | mul (a b : ExprProg V R)
  | neg (a : ExprProg V R)
  | addAssign (a b : ExprProg V R)
  | subAssign (a b : ExprProg V R)
  | mulAssign (a b : ExprProg V R)
  | pow (a : ExprProg V R) (power : Nat)

/-- The expression such a program returns; `none` if a power does not fit the `int` it is stored
in. -/
def ExprProg.run : ExprProg V R → Option (Expr V R)
  | .default => some Expr.empty
  | .term t => some (.term t.run)
  | .add a b => do return (← a.run).add (← b.run)
  | .sub a b => do return (← a.run).sub (← b.run)
  | .mul a b => do return (← a.run).mul (← b.run)
  | .neg a => do return (← a.run).neg
  | .addAssign a b => do return (← a.run).addAssign (← b.run)
  | .subAssign a b => do return (← a.run).subAssign (← b.run)
  | .mulAssign a b => do return (← a.run).mulAssign (← b.run)
  | .pow a p => do (← a.run).powOp p

/-- What the program's source text means. -/
def ExprProg.denote (get : V → R) : ExprProg V R → R
  | .default => 0
  | .term t => t.denote get
  | .add a b => a.denote get + b.denote get
  | .sub a b => a.denote get - b.denote get
  | .mul a b => a.denote get * b.denote get
  | .neg a => -a.denote get
  | .addAssign a b => a.denote get + b.denote get
  | .subAssign a b => a.denote get - b.denote get
  | .mulAssign a b => a.denote get * b.denote get
  | .pow a p => a.denote get ^ p

namespace Expr

/-- Two expression trees that differ only in the order of the variables inside terms. -/
inductive SameUpToOrder : Expr V R → Expr V R → Prop
  | term {vs ws : List V} {c : R} (h : vs.Perm ws) : SameUpToOrder (.term ⟨vs, c⟩) (.term ⟨ws, c⟩)
  | pow {e f : Expr V R} {p : Nat} (h : SameUpToOrder e f) : SameUpToOrder (.pow e p) (.pow f p)
  | bin {o : ArithOp} {a b c d : Expr V R} (h : SameUpToOrder a b) (h' : SameUpToOrder c d) :
      SameUpToOrder (.bin o a c) (.bin o b d)

/-- The degree of the tree over unbounded naturals. -/
def degree : Expr V R → Nat
  | .term t => t.vars.length
  | .pow e p => degree e * p
  | .bin .mult l r => degree l + degree r
  | .bin _ l r => max (degree l) (degree r)

/-- every `pow` node of the tree has a power of at least one -/
def PowersPositive : Expr V R → Prop
  | .term _ => True
  | .pow e p => 1 ≤ p ∧ PowersPositive e
  | .bin _ l r => PowersPositive l ∧ PowersPositive r

/-- the coefficients of all the terms of the tree satisfy `P` -/
def CoeffsSatisfy (P : R → Prop) : Expr V R → Prop
  | .term t => P t.coeff
  | .pow e _ => CoeffsSatisfy P e
  | .bin _ l r => CoeffsSatisfy P l ∧ CoeffsSatisfy P r

/-- the number of places of the tree in which `v` is written -/
def occurrences (v : V) : Expr V R → Nat
  | .term t => t.vars.count v
  | .pow e _ => occurrences v e
  | .bin _ l r => occurrences v l + occurrences v r

/-- the results of `n` successive calls of `evaluate()` on one cached evaluator object. -/
def cachedCalls (get : V → R) (e : Expr V R) : Nat → CacheState V R → List R
  | 0, _ => []
  | n + 1, s => (evaluateCached get e s).1 :: cachedCalls get e n (evaluateCached get e s).2

end Expr

/-- an iteration order of a hash map: visits every entry once. -/
def IsIterOrder {α : Type*} (iter : List α → List α) : Prop := ∀ l, (iter l).Perm l

end Crypto3Zk
