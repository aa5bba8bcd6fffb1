import Verif.Model.CountMap
import Mathlib.Algebra.Ring.Defs
import Mathlib.Order.Defs.LinearOrder
import Mathlib.Data.List.Sort

/-!
# Model of `math/expression.hpp`, `math/expression_evaluator.hpp`,
`math/expression_visitors.hpp` and `math/non_linear_combination.hpp`

`V` is the variable type, `R` its `assignment_type` (a commutative ring: a field or polynomials).
`std::sort` on variables uses a strict total order (C11), so its result is unique and is modelled
by insertion sort.
The cached `hash` members are recomputed by every mutator (`update_hash`), so they are modelled as
a function of the object.
-/

namespace Crypto3Zk

/-- `ArithmeticOperator` (math/expression.hpp:45-50). -/
inductive ArithOp where
  | add | sub | mult
deriving DecidableEq, Repr

/-- `term`: `coeff * v1 * ... * vk` (math/expression.hpp:185-284). -/
structure Term (V R : Type*) where
  vars : List V
  coeff : R
deriving Repr

/-- `expression` (math/expression.hpp:69-176): variant of term, `pow_operation` (287-334) and
`binary_arithmetic_operation` (338-414). `pow_operation::power` is an `int`; the model covers the
non-negative powers (negative ones are not meaningful for `FieldType::pow`). -/
inductive Expr (V R : Type*) where
  | term (t : Term V R)
  | pow (e : Expr V R) (power : Nat)
  | bin (op : ArithOp) (l r : Expr V R)
deriving Repr

section
variable {V R : Type*} [LinearOrder V] [CommRing R] [DecidableEq R]

namespace Term

/-- `term()` (math/expression.hpp:190-192). -/
def zero : Term V R := ⟨[], 0⟩

/-- `term(const VariableType &var)` (math/expression.hpp:194-197). -/
def ofVar (v : V) : Term V R := ⟨[v], 1⟩

/-- `term(const NumberType &field_val)` (math/expression.hpp:202-205). -/
def ofConst (c : R) : Term V R := ⟨[], c⟩

/-- `is_zero` (math/expression.hpp:227-229). -/
def isZero (t : Term V R) : Bool := t.coeff == 0

/-- `term::operator*` (math/expression.hpp:418-427). -/
def mul (s t : Term V R) : Term V R :=
  if s.isZero || t.isZero then zero else ⟨s.vars ++ t.vars, t.coeff * s.coeff⟩

/-- `term::operator-()` (math/expression.hpp:446-448). -/
def neg (t : Term V R) : Term V R := ⟨t.vars, -t.coeff⟩

/-- `term::operator==` (math/expression.hpp:585-608). -/
def beq (s t : Term V R) : Bool :=
  if s.coeff ≠ t.coeff then false
  else CountMap.eqv (fun u v => decide (u = v)) s.vars t.vars

/-- `term::update_hash` (math/expression.hpp:254-265): the coefficient's hash, then
`hash_combine` over the sorted variables. The base hashes and the combiner are parameters. -/
def hash {H : Type*} (hR : R → H) (hV : V → H) (combine : H → H → H) (t : Term V R) : H :=
  (t.vars.insertionSort (· ≤ ·)).foldl (fun h v => combine h (hV v)) (hR t.coeff)

end Term

namespace Expr

/-- `expression()` (math/expression.hpp:86-89). -/
def empty : Expr V R := .term (Term.ofConst 0)

/-- `operator==` on expressions (math/expression.hpp:673-676, 687-692, 703-705): same alternative
of the variant and equal contents. -/
def beq : Expr V R → Expr V R → Bool
  | .term s, .term t => s.beq t
  | .pow e p, .pow f q => decide (p = q) && beq e f
  | .bin o l r, .bin o' l' r' => decide (o = o') && (beq l l' && beq r r')
  | _, _ => false

/-- `is_empty` (math/expression.hpp:136-138). -/
def isEmpty (e : Expr V R) : Bool := beq e (.term (Term.ofConst 0))

/-- `operator+` (math/expression.hpp:495-503). -/
def add (e f : Expr V R) : Expr V R :=
  if e.isEmpty then f else if f.isEmpty then e else .bin .add e f

/-- `operator-` (math/expression.hpp:506-509). -/
def sub (e f : Expr V R) : Expr V R := .bin .sub e f

/-- `operator*` (math/expression.hpp:512-518). -/
def mul (e f : Expr V R) : Expr V R :=
  if e.isEmpty || f.isEmpty then empty else .bin .mult e f

/-- unary `operator-` (math/expression.hpp:458-460). -/
def neg (e : Expr V R) : Expr V R := sub (.term (Term.ofConst 0)) e

/-- `operator+=` (math/expression.hpp:463-472). -/
def addAssign (e f : Expr V R) : Expr V R :=
  if e.isEmpty then f else if !f.isEmpty then .bin .add e f else e

/-- `operator-=` (math/expression.hpp:475-480). -/
def subAssign (e f : Expr V R) : Expr V R := .bin .sub e f

/-- `operator*=` (math/expression.hpp:483-492). -/
def mulAssign (e f : Expr V R) : Expr V R :=
  if e.isEmpty || f.isEmpty then empty else .bin .mult e f

/-- `pow(std::size_t power)` (math/expression.hpp:453-455). The argument is converted to `int`;
`none` marks arguments that do not fit. -/
def powOp (e : Expr V R) (power : Nat) : Option (Expr V R) :=
  if power < 2 ^ 31 then some (.pow e power) else none

/-- `expression::update_hash`, `pow_operation::update_hash`,
`binary_arithmetic_operation::update_hash` (math/expression.hpp:154-166, 319-323, 396-401). -/
def hash {H : Type*} (hR : R → H) (hV : V → H) (hInt : Nat → H) (hOp : ArithOp → H)
    (combine : H → H → H) : Expr V R → H
  | .term t => t.hash hR hV combine
  | .pow e p => combine (hash hR hV hInt hOp combine e) (hInt p)
  | .bin o l r =>
    combine (combine (hash hR hV hInt hOp combine l) (hash hR hV hInt hOp combine r)) (hOp o)

/-! ### Evaluators -/

/-- `expression_evaluator` (math/expression_evaluator.hpp:103-137). -/
def eval (get : V → R) : Expr V R → R
  | .term t => t.vars.foldl (fun res v => res * get v) t.coeff
  | .pow e p => eval get e ^ p
  | .bin .add l r => eval get l + eval get r
  | .bin .sub l r => eval get l - eval get r
  | .bin .mult l r => eval get l * eval get r

/-- `std::unordered_map<expression, T>` as an association list; lookup by `operator==`
(math/expression_evaluator.hpp:188, 227, 254). -/
def mapFind {T : Type*} (m : List (Expr V R × T)) (k : Expr V R) : Option T :=
  (m.find? fun e => e.1.beq k).map Prod.snd

/-- `m[k] = v` (insert or overwrite) (math/expression_evaluator.hpp:168, 173, 179, 247). -/
def mapSet {T : Type*} : List (Expr V R × T) → Expr V R → T → List (Expr V R × T)
  | [], k, v => [(k, v)]
  | (k', v') :: m, k, v => if k'.beq k then (k', v) :: m else (k', v') :: mapSet m k v

/-- `m.erase(it)` (math/expression_evaluator.hpp:234). -/
def mapErase {T : Type*} : List (Expr V R × T) → Expr V R → List (Expr V R × T)
  | [], _ => []
  | (k', v') :: m, k => if k'.beq k then m else (k', v') :: mapErase m k

/-- `_counts[x]++` (math/expression_evaluator.hpp:168, 173, 179). -/
def countInc (m : List (Expr V R × Nat)) (k : Expr V R) : List (Expr V R × Nat) :=
  mapSet m k ((((mapFind m k).getD 0) + 1) % 2 ^ 64)

/-- `subexpression_counter` (math/expression_evaluator.hpp:158-182). -/
def countSub : Expr V R → List (Expr V R × Nat) → List (Expr V R × Nat)
  | .term t, m => if t.vars.length > 2 then countInc m (.term t) else m
  | .pow e p, m => countSub e (countInc m (.pow e p))
  | .bin o l r, m => countSub r (countSub l (countInc m (.bin o l r)))

/-- the mutable members of `cached_expression_evaluator`
(math/expression_evaluator.hpp:312-315). -/
structure CacheState (V R : Type*) where
  counts : List (Expr V R × Nat)
  cache : List (Expr V R × R)

/-- the cache-hit branch (math/expression_evaluator.hpp:227-236, 254-264, 276-283):
copy the value, `--_counts[x]` (64-bit wrap-around), erase on zero. -/
def cacheHit (k : Expr V R) (v : R) (s : CacheState V R) : R × CacheState V R :=
  let c := ((mapFind s.counts k).getD 0 + (2 ^ 64 - 1)) % 2 ^ 64
  let counts := mapSet s.counts k c
  (v, ⟨counts, if c = 0 then mapErase s.cache k else s.cache⟩)

/-- the store at the end of each visitor (math/expression_evaluator.hpp:246-249, 268-271,
297-300): `_counts[x]` inserts a zero when absent. -/
def cacheStore (k : Expr V R) (v : R) (s : CacheState V R) : R × CacheState V R :=
  let c := (mapFind s.counts k).getD 0
  let counts := mapSet s.counts k c
  (v, ⟨counts, if c > 1 then mapSet s.cache k v else s.cache⟩)

/-- the product loop of the cached term visitor (math/expression_evaluator.hpp:238-245): the
factor replaces a running result that is one. -/
def termLoop (get : V → R) (vars : List V) (coeff : R) : R :=
  vars.foldl (fun res v => if res = 1 then get v else res * get v) coeff

/-- `cached_expression_evaluator::operator()` (math/expression_evaluator.hpp:222-301). -/
def evalCached (get : V → R) : Expr V R → CacheState V R → R × CacheState V R
  | .term t, s =>
    if t.vars.length = 0 then (t.coeff, s)
    else
      match (if t.vars.length > 2 then mapFind s.cache (.term t) else none) with
      | some v => cacheHit (.term t) v s
      | none => cacheStore (.term t) (termLoop get t.vars t.coeff) s
  | .pow e p, s =>
    match mapFind s.cache (.pow e p) with
    | some v => cacheHit (.pow e p) v s
    | none =>
      let (b, s) := evalCached get e s
      cacheStore (.pow e p) (b ^ p) s
  | .bin o l r, s =>
    match mapFind s.cache (.bin o l r) with
    | some v => cacheHit (.bin o l r) v s
    | none =>
      let (a, s) := evalCached get l s
      let (b, s) := evalCached get r s
      let v := match o with
        | .add => a + b
        | .sub => a - b
        | .mult => a * b
      cacheStore (.bin o l r) v s

/-- `cached_expression_evaluator::evaluate` (math/expression_evaluator.hpp:215-220): recompute the
counts, keep the cache. -/
def evaluateCached (get : V → R) (e : Expr V R) (s : CacheState V R) : R × CacheState V R :=
  evalCached get e ⟨countSub e [], s.cache⟩

/-! ### Visitors -/

/-- `expression_max_degree_visitor` (math/expression_visitors.hpp:38-70), in `uint32`. -/
def maxDegree32 : Expr V R → Nat
  | .term t => t.vars.length % 2 ^ 32
  | .pow e p => (maxDegree32 e * p) % 2 ^ 32
  | .bin .mult l r => (maxDegree32 l + maxDegree32 r) % 2 ^ 32
  | .bin _ l r => max (maxDegree32 l) (maxDegree32 r)

/-- `expression_for_each_variable_visitor` (math/expression_visitors.hpp:76-104): the sequence of
variables passed to the callback. -/
def visitVars : Expr V R → List V
  | .term t => t.vars
  | .pow e _ => visitVars e
  | .bin _ l r => visitVars l ++ visitVars r

end Expr

/-! ### `non_linear_combination` -/

/-- `non_linear_combination::terms` (math/non_linear_combination.hpp:46-52). -/
abbrev NLC (V R : Type*) := List (Term V R)

namespace NLC

/-- `operator*(field_coeff)` (math/non_linear_combination.hpp:86-93); the scalar is converted to a
term. -/
def scale (a : NLC V R) (c : R) : NLC V R := a.map fun t => t.mul (Term.ofConst c)

/-- `operator+` (math/non_linear_combination.hpp:95-102). -/
def add (a b : NLC V R) : NLC V R := a ++ b

/-- unary `operator-` (math/non_linear_combination.hpp:106-108). -/
def neg (a : NLC V R) : NLC V R := scale a (-1)

/-- binary `operator-` (math/non_linear_combination.hpp:103-105). -/
def sub (a b : NLC V R) : NLC V R := add a (neg b)

/-- `operator*` of combinations (math/non_linear_combination.hpp:186-197). -/
def mul (a b : NLC V R) : NLC V R := a.flatMap fun s => b.map fun t => s.mul t

/-- `max_degree` (math/non_linear_combination.hpp:110-116). -/
def maxDegree (a : NLC V R) : Nat := a.foldl (fun d t => max d t.vars.length) 0

/-- one step of `merge_equal_terms` (math/non_linear_combination.hpp:127-136): find the entry whose
key (a term with coefficient one) equals the term's variables, add or insert. -/
def mergeInsert : List (Term V R × R) → Term V R → List (Term V R × R)
  | [], t => [(⟨t.vars, 1⟩, t.coeff)]
  | (k, c) :: m, t =>
    if k.beq ⟨t.vars, 1⟩ then (k, c + t.coeff) :: m else (k, c) :: mergeInsert m t

/-- `merge_equal_terms` (math/non_linear_combination.hpp:125-143). `iter` is the unspecified
iteration order of the `unordered_map`. -/
def mergeEqualTerms (iter : List (Term V R × R) → List (Term V R × R)) (a : NLC V R) : NLC V R :=
  ((iter (a.foldl mergeInsert [])).filter fun e => decide (e.2 ≠ 0)).map
    fun e => ⟨e.1.vars, e.2⟩

/-- `operator==` (math/non_linear_combination.hpp:145-175). -/
def beq (a b : NLC V R) : Bool := CountMap.eqv Term.beq a b

end NLC

namespace Expr

/-- the power loop (math/expression_visitors.hpp:130-139): `result = base`, then
`for (int i = 1; i < power; ++i) result = result * base`. -/
def powLoop (base : NLC V R) : Nat → NLC V R
  | 0 => base
  | 1 => base
  | p + 2 => NLC.mul (powLoop base (p + 1)) base

/-- `expression_to_non_linear_combination_visitor::operator()`
(math/expression_visitors.hpp:123-156). -/
def flatten : Expr V R → NLC V R
  | .term t => [t]
  | .pow e p => powLoop (flatten e) p
  | .bin .add l r => NLC.add (flatten l) (flatten r)
  | .bin .sub l r => NLC.sub (flatten l) (flatten r)
  | .bin .mult l r => NLC.mul (flatten l) (flatten r)

/-- `convert` (math/expression_visitors.hpp:115-121). -/
def toNLC (iter : List (Term V R × R) → List (Term V R × R)) (e : Expr V R) : NLC V R :=
  NLC.mergeEqualTerms iter (flatten e)

end Expr
end

namespace Expr

variable {V W R S : Type*} [LinearOrder V] [LinearOrder W] [CommRing R] [DecidableEq R]
  [CommRing S] [DecidableEq S]

/-- `expression_variable_type_converter` (math/expression_visitors.hpp:166-224). `g` copies the
variable's fields, `f` is `_convert_coefficient`. -/
def convert (g : V → W) (f : R → S) : Expr V R → Expr W S
  | .term t => .term ⟨t.vars.map g, f t.coeff⟩
  | .pow e p => .pow (convert g f e) p
  | .bin .add l r => add (convert g f l) (convert g f r)
  | .bin .sub l r => sub (convert g f l) (convert g f r)
  | .bin .mult l r => mul (convert g f l) (convert g f r)

end Expr
end Crypto3Zk
