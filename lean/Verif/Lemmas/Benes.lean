import Verif.Model.Benes
import Verif.Lemmas.IntegerPermutation
import Mathlib.Data.Nat.Bitwise
import Mathlib.Tactic.Ring
import Mathlib.Tactic.NormNum
import Mathlib.Tactic.Positivity
import Mathlib.Tactic.IntervalCases
import Mathlib.Order.Interval.Finset.Nat

/-!
# Lemmas about the Benes network
-/

namespace Crypto3Zk

namespace Benes

/-! ## bits -/

/-- the bit of weight `h` -/
def top (h x : Nat) : Nat := if x / h % 2 = 1 then x - h else x
def bot (h x : Nat) : Nat := if x / h % 2 = 1 then x else x + h
def cross (h x : Nat) : Nat := if x / h % 2 = 1 then x - h else x + h
def dest (h : Nat) (b : Bool) (x : Nat) : Nat := if b then top h x else bot h x

theorem decompose (j x : Nat) : ∃ q b r, b < 2 ∧ r < 2 ^ j ∧ x = 2 ^ (j + 1) * q + (2 ^ j * b + r) ∧
    x / 2 ^ j % 2 = b := by
  have hp : 0 < 2 ^ j := by positivity
  refine ⟨x / 2 ^ j / 2, x / 2 ^ j % 2, x % 2 ^ j, Nat.mod_lt _ (by norm_num), Nat.mod_lt _ hp, ?_, rfl⟩
  have h1 := Nat.div_add_mod x (2 ^ j)
  have h2 := Nat.div_add_mod (x / 2 ^ j) 2
  rw [pow_succ]
  calc x = 2 ^ j * (x / 2 ^ j) + x % 2 ^ j := h1.symm
    _ = 2 ^ j * (2 * (x / 2 ^ j / 2) + x / 2 ^ j % 2) + x % 2 ^ j := by rw [h2]
    _ = _ := by ring

theorem testBit_decompose (j q b r i : Nat) (hb : b < 2) (hr : r < 2 ^ j) :
    (2 ^ (j + 1) * q + (2 ^ j * b + r)).testBit i =
      if i < j then r.testBit i else if i = j then decide (b = 1) else q.testBit (i - (j + 1)) := by
  have hs : 2 ^ j * b + r < 2 ^ (j + 1) := by
    rw [pow_succ]
    interval_cases b <;> omega
  rw [Nat.testBit_two_pow_mul_add _ hs, Nat.testBit_two_pow_mul_add _ hr]
  rcases lt_trichotomy i j with h | h | h
  · simp [h, Nat.lt_succ_of_lt h]
  · subst h
    interval_cases b <;> simp
  · have h1 : ¬ i < j := by omega
    have h2 : ¬ i < j + 1 := by omega
    have h3 : i ≠ j := by omega
    simp [h1, h2, h3]

theorem xor_eq_cross (j x : Nat) : x ^^^ 2 ^ j = cross (2 ^ j) x := by
  obtain ⟨q, b, r, hb, hr, hx, hbit⟩ := decompose j x
  have : cross (2 ^ j) x = 2 ^ (j + 1) * q + (2 ^ j * (1 - b) + r) := by
    rw [cross, hbit]
    interval_cases b <;> simp at hx ⊢ <;> omega
  rw [this]
  apply Nat.eq_of_testBit_eq
  intro i
  rw [Nat.testBit_xor, hx, testBit_decompose _ _ _ _ _ hb hr, testBit_decompose _ _ _ _ _ (by omega) hr,
    Nat.testBit_two_pow]
  rcases lt_trichotomy i j with h | h | h
  · have : ¬ j = i := by omega
    simp [h, this]
  · subst h
    interval_cases b <;> simp
  · have h1 : ¬ i < j := by omega
    have h3 : i ≠ j := by omega
    simp [h1, h3, h3.symm]

theorem or_eq_bot (j x : Nat) : x ||| 2 ^ j = bot (2 ^ j) x := by
  obtain ⟨q, b, r, hb, hr, hx, hbit⟩ := decompose j x
  have : bot (2 ^ j) x = 2 ^ (j + 1) * q + (2 ^ j * 1 + r) := by
    rw [bot, hbit]
    interval_cases b <;> simp at hx ⊢ <;> omega
  rw [this]
  apply Nat.eq_of_testBit_eq
  intro i
  rw [Nat.testBit_or, hx, testBit_decompose _ _ _ _ _ hb hr, testBit_decompose _ _ _ _ _ (by omega) hr,
    Nat.testBit_two_pow]
  rcases lt_trichotomy i j with h | h | h
  · have : ¬ j = i := by omega
    simp [h, this]
  · subst h; simp
  · have h1 : ¬ i < j := by omega
    have h3 : i ≠ j := by omega
    simp [h1, h3, h3.symm]

theorem and_eq_top (j x : Nat) (hj : j < 64) (hx64 : x < 2 ^ 64) : x &&& (2 ^ 64 - 1 - 2 ^ j) = top (2 ^ j) x := by
  obtain ⟨q, b, r, hb, hr, hx, hbit⟩ := decompose j x
  have : top (2 ^ j) x = 2 ^ (j + 1) * q + (2 ^ j * 0 + r) := by
    rw [top, hbit]
    interval_cases b <;> simp at hx ⊢ <;> omega
  have hpow : 2 ^ j < 2 ^ 64 := Nat.pow_lt_pow_right (by norm_num) hj
  have hm : 2 ^ 64 - 1 - 2 ^ j = 2 ^ 64 - (2 ^ j + 1) := by omega
  rw [this, hm]
  apply Nat.eq_of_testBit_eq
  intro i
  rw [Nat.testBit_and, Nat.testBit_two_pow_sub_succ hpow, Nat.testBit_two_pow]
  by_cases hi : i < 64
  · rw [hx, testBit_decompose _ _ _ _ _ hb hr, testBit_decompose _ _ _ _ _ (by omega) hr]
    rcases lt_trichotomy i j with h | h | h
    · have : ¬ j = i := by omega
      simp [h, this, hi]
    · subst h; simp
    · have h1 : ¬ i < j := by omega
      have h3 : i ≠ j := by omega
      simp [h1, h3, h3.symm, hi]
  · have hxi : x.testBit i = false := Nat.testBit_lt_two_pow (hx64.trans_le (Nat.pow_le_pow_right (by norm_num) (by omega)))
    rw [hxi]
    symm
    have h2 := testBit_decompose j q 0 r i (by omega) hr
    have h3 := testBit_decompose j q b r i hb hr
    rw [← hx, hxi] at h3
    rw [h2]
    have h4 : ¬ i < j := by omega
    have h5 : i ≠ j := by omega
    rw [if_neg h4, if_neg h5] at h3 ⊢
    simpa using h3.symm

variable {h x off : Nat}

/-- the block a number lies in -/
def Block (h off : Nat) (x : Nat) : Prop := off ≤ x ∧ x < off + 2 * h

theorem block_bit (hh : 0 < h) (hoff : 2 * h ∣ off) (hx : Block h off x) :
    x / h % 2 = if x < off + h then 0 else 1 := by
  obtain ⟨q, rfl⟩ := hoff
  obtain ⟨h1, h2⟩ := hx
  obtain ⟨r, rfl⟩ : ∃ r, x = 2 * h * q + r := ⟨x - 2 * h * q, by omega⟩
  have e : (2 * h * q + r) / h = 2 * q + r / h := by
    rw [show 2 * h * q = h * (2 * q) by ring, Nat.mul_add_div hh]
  rw [e]
  split
  · have : r / h = 0 := Nat.div_eq_of_lt (by omega)
    omega
  · have : r / h = 1 := by
      rw [Nat.div_eq_iff hh]
      constructor <;> omega
    omega

theorem top_eq (hh : 0 < h) (hoff : 2 * h ∣ off) (hx : Block h off x) :
    top h x = if x < off + h then x else x - h := by
  rw [top, block_bit hh hoff hx]; split <;> simp

theorem bot_eq (hh : 0 < h) (hoff : 2 * h ∣ off) (hx : Block h off x) :
    bot h x = if x < off + h then x + h else x := by
  rw [bot, block_bit hh hoff hx]; split <;> simp

theorem cross_eq (hh : 0 < h) (hoff : 2 * h ∣ off) (hx : Block h off x) :
    cross h x = if x < off + h then x + h else x - h := by
  rw [cross, block_bit hh hoff hx]; split <;> simp

theorem cross_block (hh : 0 < h) (hoff : 2 * h ∣ off) (hx : Block h off x) : Block h off (cross h x) := by
  rw [cross_eq hh hoff hx]
  obtain ⟨h1, h2⟩ := hx
  unfold Block
  split <;> omega

theorem cross_cross (hh : 0 < h) (hoff : 2 * h ∣ off) (hx : Block h off x) : cross h (cross h x) = x := by
  rw [cross_eq hh hoff (cross_block hh hoff hx), cross_eq hh hoff hx]
  obtain ⟨h1, h2⟩ := hx
  split <;> split <;> omega

theorem cross_ne (hh : 0 < h) (hoff : 2 * h ∣ off) (hx : Block h off x) : cross h x ≠ x := by
  rw [cross_eq hh hoff hx]
  obtain ⟨h1, h2⟩ := hx
  split <;> omega

theorem dest_block (hh : 0 < h) (hoff : 2 * h ∣ off) (hx : Block h off x) (b : Bool) :
    Block h off (dest h b x) := by
  unfold dest
  rw [top_eq hh hoff hx, bot_eq hh hoff hx]
  obtain ⟨h1, h2⟩ := hx
  unfold Block
  split <;> split <;> omega

theorem dest_half (hh : 0 < h) (hoff : 2 * h ∣ off) (hx : Block h off x) (b : Bool) :
    dest h b x < off + h ↔ b = true := by
  unfold dest
  rw [top_eq hh hoff hx, bot_eq hh hoff hx]
  obtain ⟨h1, h2⟩ := hx
  cases b <;> simp <;> split <;> omega

/-- two packets meet only if they share a switch or are the same -/
theorem dest_inj (hh : 0 < h) (hoff : 2 * h ∣ off) {y : Nat} (hx : Block h off x) (hy : Block h off y)
    {b c : Bool} (e : dest h b x = dest h c y) : b = c ∧ (y = x ∨ y = cross h x) := by
  have hbc : b = c := by
    have h1 := dest_half hh hoff hx b
    have h2 := dest_half hh hoff hy c
    rw [e, h2] at h1
    cases b <;> cases c <;> simp_all
  subst hbc
  refine ⟨rfl, ?_⟩
  unfold dest at e
  rw [top_eq hh hoff hx, bot_eq hh hoff hx, top_eq hh hoff hy, bot_eq hh hoff hy] at e
  rw [cross_eq hh hoff hx]
  obtain ⟨h1, h2⟩ := hx
  obtain ⟨h3, h4⟩ := hy
  cases b <;> simp at e <;> split at e <;> split at e <;> split <;> omega

theorem dest_cross (hh : 0 < h) (hoff : 2 * h ∣ off) (hx : Block h off x) (b : Bool) :
    dest h b (cross h x) = dest h b x := by
  unfold dest
  rw [top_eq hh hoff hx, bot_eq hh hoff hx, top_eq hh hoff (cross_block hh hoff hx),
    bot_eq hh hoff (cross_block hh hoff hx), cross_eq hh hoff hx]
  obtain ⟨h1, h2⟩ := hx
  cases b <;> simp <;> split <;> split <;> omega

theorem cross_dest (hh : 0 < h) (hoff : 2 * h ∣ off) (hx : Block h off x) (b : Bool) :
    cross h (dest h b x) = dest h (!b) x := by
  rw [cross_eq hh hoff (dest_block hh hoff hx b)]
  unfold dest
  rw [top_eq hh hoff hx, bot_eq hh hoff hx]
  obtain ⟨h1, h2⟩ := hx
  cases b <;> by_cases h' : x < off + h <;> simp [h'] <;> first | omega | (split <;> omega)

/-- the destination is where the packet is, or across -/
theorem dest_or (hh : 0 < h) (hoff : 2 * h ∣ off) (hx : Block h off x) (b : Bool) :
    dest h b x = if (x != dest h b x) = true then cross h x else x := by
  rw [cross_eq hh hoff hx]
  unfold dest
  rw [top_eq hh hoff hx, bot_eq hh hoff hx]
  obtain ⟨h1, h2⟩ := hx
  cases b <;> by_cases h' : x < off + h <;> simp [h'] <;> omega

/-! ## cells -/

/-- the setting of a switch, `false` outside of the vectors -/
def cell (r : BenesRouting) (c x : Nat) : Bool := (r.getD c []).getD x false

/-- a routing with `cols` columns of `rows` packets -/
def Shape (cols rows : Nat) (r : BenesRouting) : Prop := r.length = cols ∧ ∀ c ∈ r, c.length = rows

theorem write_spec {cols rows : Nat} {r : BenesRouting} (hr : Shape cols rows r) {c x : Nat} (hc : c < cols)
    (hx : x < rows) (b : Bool) :
    ∃ r', benesWrite r c x b = some r' ∧ Shape cols rows r' ∧
      ∀ c' x', cell r' c' x' = if c' = c ∧ x' = x then b else cell r c' x' := by
  obtain ⟨h1, h2⟩ := hr
  have hc' : c < r.length := by omega
  have hl : (r[c]).length = rows := h2 _ (List.getElem_mem _)
  refine ⟨r.set c (r[c].set x b), ?_, ⟨by simp [h1], ?_⟩, ?_⟩
  · simp [benesWrite, List.getElem?_eq_getElem hc', hl, hx]
  · intro l hl'
    rcases List.mem_or_eq_of_mem_set hl' with h | rfl
    · exact h2 _ h
    · simp [hl]
  · intro c' x'
    unfold cell
    simp only [List.getD_eq_getElem?_getD, List.getElem?_set]
    by_cases hcc : c = c'
    · subst hcc
      simp only [hc', if_true, Option.getD_some, List.getElem?_set, List.getElem?_eq_getElem hc', true_and]
      by_cases hxx : x = x'
      · subst hxx; simp [hl, hx]
      · simp [hxx, Ne.symm hxx]
    · simp [hcc, Ne.symm hcc]

/-- a permutation object on the block -/
def OnBlock (h off : Nat) (p : IntPerm) : Prop :=
  p.WF ∧ p.minElement = off ∧ p.maxElement = off + 2 * h - 1

theorem set_spec (hh : 0 < h) {p : IntPerm} (hp : OnBlock h off p) (hx : Block h off x) (v : Nat) :
    ∃ q, p.set x v = some q ∧ OnBlock h off q ∧ q.get x = some v ∧ ∀ y, y ≠ x → q.get y = p.get y := by
  obtain ⟨⟨w1, w2⟩, h1, h2⟩ := hp
  obtain ⟨x1, x2⟩ := hx
  have hlt : x - p.minElement < p.contents.length := by omega
  refine ⟨{ p with contents := p.contents.set (x - p.minElement) v }, ?_, ⟨⟨w1, by simpa using w2⟩, h1, h2⟩, ?_, ?_⟩
  · rw [IntPerm.set, if_pos (by omega), if_pos hlt]
  · simp only [IntPerm.get]
    rw [if_pos (by omega), List.getElem?_set_self hlt]
  · intro y hy
    simp only [IntPerm.get]
    by_cases hr : p.minElement ≤ y ∧ y ≤ p.maxElement
    · rw [if_pos hr, if_pos hr, List.getElem?_set_ne (by omega)]
    · rw [if_neg hr, if_neg hr]

/-! ## one level of the recursion -/

/-- the permutation of the block as functions -/
structure Perm (h off : Nat) (p inv : IntPerm) (f g : Nat → Nat) : Prop where
  f_block : ∀ x, Block h off x → Block h off (f x)
  g_block : ∀ x, Block h off x → Block h off (g x)
  gf : ∀ x, Block h off x → g (f x) = x
  fg : ∀ x, Block h off x → f (g x) = x
  get : ∀ x, Block h off x → p.get x = some (f x)
  get_inv : ∀ x, Block h off x → inv.get x = some (g x)

/-- what the code computes from column and row numbers, on the block -/
structure Level (d s e h off cols rows : Nat) : Prop where
  pos : 0 < h
  dvd : 2 * h ∣ off
  ne : s ≠ e - 1
  s_lt : s < cols
  e_lt : e - 1 < cols
  inRows : off + 2 * h ≤ rows
  lhs : ∀ x, Block h off x → ∀ b, benesLhsDestination d s x b = dest h b x
  rhs : ∀ x, Block h off x → ∀ b, benesRhsSource d e x b = dest h b x
  setL : ∀ x, Block h off x → ∀ b, benesSetting d s x b = (x != dest h b x)
  setR : ∀ x, Block h off x → ∀ b, benesSetting d (e - 1) x b = (x != dest h b x)
  crossL : ∀ x, Block h off x → benesCrossDestination d s x = cross h x
  crossR : ∀ x, Block h off x → benesCrossSource d e x = cross h x

/-- what has been done for the packets with a side (`true` is the top) -/
structure Filled (f g : Nat → Nat) (s e h off cols rows : Nat) (r0 : BenesRouting) (side : Nat → Option Bool)
    (routed : List Bool) (np npi : IntPerm) (routing : BenesRouting) (last : Nat) : Prop where
  len : routed.length = 2 * h
  routedIff : ∀ x, Block h off x → routed[x - off]? = some (side x).isSome
  npOn : OnBlock h off np
  npiOn : OnBlock h off npi
  done : ∀ x b, Block h off x → side x = some b →
    np.get (dest h b x) = some (dest h b (f x)) ∧ npi.get (dest h b (f x)) = some (dest h b x) ∧
    cell routing s x = (x != dest h b x) ∧ cell routing (e - 1) (dest h b (f x)) = (f x != dest h b (f x))
  shape : Shape cols rows routing
  frame : ∀ c y, ¬ ((c = s ∨ c = e - 1) ∧ Block h off y) → cell routing c y = cell r0 c y
  pairs : ∀ x b, Block h off x → side x = some b → side (g (cross h (f x))) = some (!b)
  before : ∀ x, Block h off x → x < last → side x ≠ none
  lastIn : off ≤ last ∧ last ≤ off + 2 * h

/-- which neighbours on the left have not been routed: that of the start of the chain, and `w` -/
structure Chain (h off : Nat) (side : Nat → Option Bool) (w : Nat) : Prop where
  block : Block h off w
  new : side w = none
  chain : ∃ a : Option Nat, (side (cross h w) = none ∧ a = none ∨ side (cross h w) = some false) ∧
    ∀ x b, Block h off x → side x = some b → side (cross h x) = some (!b) ∨
      (side (cross h x) = none ∧ (b = true ∧ a = some x ∨ b = false ∧ x = cross h w))

/-- all neighbours have been routed -/
def Closed (h off : Nat) (side : Nat → Option Bool) : Prop :=
  ∀ x b, Block h off x → side x = some b → side (cross h x) = some (!b)

/-- the packets routed by one iteration -/
def sideStep (side : Nat → Option Bool) (w v : Nat) : Nat → Option Bool :=
  fun x => if x = w then some true else if x = v then some false else side x

theorem advance_spec (routed : List Bool) (off last : Nat) (hl : off ≤ last) (hl2 : last ≤ off + routed.length) :
    last ≤ benesAdvance routed off last ∧ benesAdvance routed off last ≤ off + routed.length ∧
    (∀ x, last ≤ x → x < benesAdvance routed off last → routed[x - off]? = some true) ∧
    (benesAdvance routed off last < off + routed.length →
      routed[benesAdvance routed off last - off]? = some false) := by
  have key : ∀ l : List Bool, (l.takeWhile id).length ≤ l.length ∧
      (∀ i < (l.takeWhile id).length, l[i]? = some true) ∧
      ((l.takeWhile id).length < l.length → l[(l.takeWhile id).length]? = some false) := by
    intro l
    induction l with
    | nil => simp
    | cons a l ih =>
      cases a with
      | false => simp
      | true =>
        obtain ⟨h1, h2, h3⟩ := ih
        have : ((true :: l).takeWhile id) = true :: l.takeWhile id := by simp
        rw [this]
        refine ⟨by simpa using h1, ?_, by simpa using h3⟩
        intro i hi
        cases i with
        | zero => simp
        | succ i => simpa using h2 i (by simpa using hi)
  obtain ⟨h1, h2, h3⟩ := key (routed.drop (last - off))
  rw [List.length_drop] at h1 h3
  have hsub : ∀ i, (routed.drop (last - off))[i]? = routed[last - off + i]? := by intro i; simp
  unfold benesAdvance
  refine ⟨by omega, by omega, ?_, ?_⟩
  · intro x hx1 hx2
    have := h2 (x - last) (by omega)
    rw [hsub] at this
    rwa [show last - off + (x - last) = x - off by omega] at this
  · intro hlt
    have := h3 (by omega)
    rw [hsub] at this
    rwa [show last - off + ((routed.drop (last - off)).takeWhile id).length =
      last + ((routed.drop (last - off)).takeWhile id).length - off by omega] at this

theorem body_spec {d s e h off cols rows : Nat} (L : Level d s e h off cols rows) {p inv : IntPerm} {f g : Nat → Nat}
    (P : Perm h off p inv f g) (r0 : BenesRouting) (side : Nat → Option Bool) (st : BenesState)
    (F : Filled f g s e h off cols rows r0 side st.lhsRouted st.newPermutation st.newPermutationInv st.routing
      st.lastUnrouted) (C : Chain h off side st.w) :
    ∃ st' cont, benesBody d p inv s e off (2 * h) st = some (st', cont) ∧
      Filled f g s e h off cols rows r0 (sideStep side st.w (g (cross h (f st.w)))) st'.lhsRouted st'.newPermutation
        st'.newPermutationInv st'.routing st'.lastUnrouted ∧
      (if cont then Chain h off (sideStep side st.w (g (cross h (f st.w)))) st'.w else
        Closed h off (sideStep side st.w (g (cross h (f st.w)))) ∧
          ∀ x, Block h off x → sideStep side st.w (g (cross h (f st.w))) x ≠ none) := by
  obtain ⟨routed, w, last, np, npi, routing⟩ := st
  simp only at F C ⊢
  have hh := L.pos
  have ho := L.dvd
  have bw := C.block
  have bfw := P.f_block w bw
  have bvp := cross_block hh ho bfw
  have bv := P.g_block _ bvp
  set v := g (cross h (f w)) with hv
  have fv : f v = cross h (f w) := P.fg _ bvp
  have nw := C.new
  -- the partner is new
  have nv : side v = none := by
    by_contra hne
    obtain ⟨b, hb⟩ := Option.ne_none_iff_exists'.1 hne
    have := F.pairs v b bv hb
    rw [fv, cross_cross hh ho bfw, P.gf w bw, nw] at this
    simp at this
  have hwv : v ≠ w := by
    intro e
    have : f v = f w := by rw [e]
    rw [fv] at this
    exact cross_ne hh ho bfw this
  obtain ⟨a, ha, hchain⟩ := C.chain
  -- nothing routed before is in the way
  have colW : ∀ y c, Block h off y → side y = some c → dest h c y ≠ dest h true w := by
    intro y c hy hc e
    obtain ⟨rfl, e'⟩ := dest_inj hh ho hy bw e
    rcases e' with rfl | rfl
    · rw [nw] at hc; simp at hc
    · rw [cross_cross hh ho hy] at ha
      rcases ha with ⟨ha, -⟩ | ha <;> rw [hc] at ha <;> simp at ha
  have colV : ∀ y c, Block h off y → side y = some c → dest h c y ≠ dest h false v := by
    intro y c hy hc e
    obtain ⟨rfl, e'⟩ := dest_inj hh ho hy bv e
    rcases e' with e' | e'
    · rw [e', hc] at nv; simp at nv
    · rcases hchain y _ hy hc with h1 | ⟨-, ⟨h1, -⟩ | ⟨-, h1⟩⟩
      · rw [← e', nv] at h1; simp at h1
      · simp at h1
      · apply hwv
        rw [e', h1, cross_cross hh ho bw]
  have colW' : ∀ y c, Block h off y → side y = some c → dest h c (f y) ≠ dest h true (f w) := by
    intro y c hy hc e
    obtain ⟨rfl, e'⟩ := dest_inj hh ho (P.f_block y hy) bfw e
    rcases e' with e' | e'
    · have : w = y := by rw [← P.gf w bw, ← P.gf y hy, e']
      rw [this, hc] at nw; simp at nw
    · have := F.pairs y _ hy hc
      rw [← e', P.gf w bw, nw] at this
      simp at this
  have colV' : ∀ y c, Block h off y → side y = some c → dest h c (f y) ≠ dest h false (f v) := by
    intro y c hy hc e
    obtain ⟨rfl, e'⟩ := dest_inj hh ho (P.f_block y hy) (P.f_block v bv) e
    rcases e' with e' | e'
    · have : v = y := by rw [← P.gf v bv, ← P.gf y hy, e']
      rw [this, hc] at nv; simp at nv
    · have := F.pairs y _ hy hc
      rw [← e', P.gf v bv, nv] at this
      simp at this
  have halves : ∀ x y, Block h off x → Block h off y → dest h true x ≠ dest h false y := by
    intro x y hx hy e
    have := (dest_inj hh ho hx hy e).1
    simp at this
  -- the writes
  have inRows : ∀ x, Block h off x → x < rows := fun x hx => by have := hx.2; have := L.inRows; omega
  obtain ⟨r1, hr1, sr1, cr1⟩ := write_spec F.shape L.s_lt (inRows w bw) (w != dest h true w)
  obtain ⟨n1, hn1, on1, gn1, fn1⟩ := set_spec hh F.npOn (dest_block hh ho bw true) (dest h true (f w))
  obtain ⟨r2, hr2, sr2, cr2⟩ := write_spec sr1 L.e_lt (inRows _ (dest_block hh ho bfw true)) (f w != dest h true (f w))
  obtain ⟨m1, hm1, om1, gm1, fm1⟩ := set_spec hh F.npiOn (dest_block hh ho bfw true) (dest h true w)
  obtain ⟨r3, hr3, sr3, cr3⟩ := write_spec sr2 L.e_lt (inRows _ (dest_block hh ho bvp false))
    (cross h (f w) != dest h false (cross h (f w)))
  obtain ⟨m2, hm2, om2, gm2, fm2⟩ := set_spec hh om1 (dest_block hh ho bvp false) (dest h false v)
  obtain ⟨r4, hr4, sr4, cr4⟩ := write_spec sr3 L.s_lt (inRows v bv) (v != dest h false v)
  obtain ⟨n2, hn2, on2, gn2, fn2⟩ := set_spec hh on1 (dest_block hh ho bv false) (dest h false (cross h (f w)))
  have hlen := F.len
  have hw1 : off ≤ w := bw.1
  have hw2 : w - off < routed.length := by rw [hlen]; have := bw.2; omega
  have hv1 : off ≤ v := bv.1
  have hv2 : v - off < routed.length := by rw [hlen]; have := bv.2; omega
  have hne : w - off ≠ v - off := by
    intro e; apply hwv; omega
  have hrv : (routed.set (w - off) true)[v - off]? = some false := by
    rw [List.getElem?_set_ne hne, F.routedIff v bv, nv]; rfl
  have bcv := cross_block hh ho bv
  have hrouted : ∀ x, Block h off x →
      ((routed.set (w - off) true).set (v - off) true)[x - off]? = some (sideStep side w v x).isSome := by
    intro x hx
    have hx1 := hx.1
    unfold sideStep
    by_cases h1 : x = w
    · subst h1
      rw [List.getElem?_set_ne (Ne.symm hne), List.getElem?_set_self hw2]; simp
    · rw [if_neg h1]
      by_cases h2 : x = v
      · subst h2
        rw [List.getElem?_set_self (by simpa using hv2)]; simp
      · rw [if_neg h2, List.getElem?_set_ne (by omega), List.getElem?_set_ne (by omega), F.routedIff x hx]
  have hsw : sideStep side w v w = some true := by simp [sideStep]
  have hsv : sideStep side w v v = some false := by simp [sideStep, hwv]
  have hso : ∀ x b, side x = some b → sideStep side w v x = some b := by
    intro x b hb
    unfold sideStep
    rw [if_neg (by rintro rfl; rw [nw] at hb; simp at hb), if_neg (by rintro rfl; rw [nv] at hb; simp at hb), hb]
  have hcase : ∀ x b, sideStep side w v x = some b → (x = w ∧ b = true) ∨ (x = v ∧ b = false) ∨
      (x ≠ w ∧ x ≠ v ∧ side x = some b) := by
    intro x b hb
    unfold sideStep at hb
    by_cases h1 : x = w
    · rw [if_pos h1] at hb; left; exact ⟨h1, (Option.some.inj hb).symm⟩
    · rw [if_neg h1] at hb
      by_cases h2 : x = v
      · rw [if_pos h2] at hb; right; left; exact ⟨h2, (Option.some.inj hb).symm⟩
      · rw [if_neg h2] at hb; exact Or.inr (Or.inr ⟨h1, h2, hb⟩)
  have hse := L.ne
  have hdone : ∀ x b, Block h off x → sideStep side w v x = some b →
      n2.get (dest h b x) = some (dest h b (f x)) ∧ m2.get (dest h b (f x)) = some (dest h b x) ∧
      cell r4 s x = (x != dest h b x) ∧ cell r4 (e - 1) (dest h b (f x)) = (f x != dest h b (f x)) := by
    intro x b hx hb
    rcases hcase x b hb with ⟨rfl, rfl⟩ | ⟨rfl, rfl⟩ | ⟨h1, h2, hb⟩
    · refine ⟨?_, ?_, ?_, ?_⟩
      · rw [fn2 _ (halves _ _ bw bv), gn1]
      · rw [fm2 _ (halves _ _ bfw bvp), gm1]
      · rw [cr4, if_neg (by intro h; exact hwv h.2.symm), cr3, if_neg (by intro h; exact hse h.1), cr2,
          if_neg (by intro h; exact hse h.1), cr1, if_pos ⟨rfl, rfl⟩]
      · rw [cr4, if_neg (by intro h; exact hse h.1.symm), cr3, if_neg (by intro h; exact halves _ _ bfw bvp h.2), cr2,
          if_pos ⟨rfl, rfl⟩]
    · rw [fv]
      refine ⟨gn2, gm2, ?_, ?_⟩
      · rw [cr4, if_pos ⟨rfl, rfl⟩]
      · rw [cr4, if_neg (by intro h; exact hse h.1.symm), cr3, if_pos ⟨rfl, rfl⟩]
    · obtain ⟨d1, d2, d3, d4⟩ := F.done x b hx hb
      have c1 := colW x b hx hb
      have c2 := colV x b hx hb
      have c3 := colW' x b hx hb
      have c4 := colV' x b hx hb
      rw [fv] at c4
      refine ⟨?_, ?_, ?_, ?_⟩
      · rw [fn2 _ c2, fn1 _ c1, d1]
      · rw [fm2 _ c4, fm1 _ c3, d2]
      · rw [cr4, if_neg (by intro h; exact h2 h.2), cr3, if_neg (by intro h; exact hse h.1), cr2,
          if_neg (by intro h; exact hse h.1), cr1, if_neg (by intro h; exact h1 h.2), d3]
      · rw [cr4, if_neg (by intro h; exact hse h.1.symm), cr3, if_neg (by intro h; exact c4 h.2), cr2,
          if_neg (by intro h; exact c3 h.2), cr1, if_neg (by intro h; exact hse h.1.symm), d4]
  have hframe : ∀ c y, ¬ ((c = s ∨ c = e - 1) ∧ Block h off y) → cell r4 c y = cell r0 c y := by
    intro c y hcy
    rw [cr4, if_neg (by rintro ⟨rfl, rfl⟩; exact hcy ⟨Or.inl rfl, bv⟩), cr3,
      if_neg (by rintro ⟨rfl, rfl⟩; exact hcy ⟨Or.inr rfl, dest_block hh ho bvp false⟩), cr2,
      if_neg (by rintro ⟨rfl, rfl⟩; exact hcy ⟨Or.inr rfl, dest_block hh ho bfw true⟩), cr1,
      if_neg (by rintro ⟨rfl, rfl⟩; exact hcy ⟨Or.inl rfl, bw⟩)]
    exact F.frame c y hcy
  have hpairs : ∀ x b, Block h off x → sideStep side w v x = some b →
      sideStep side w v (g (cross h (f x))) = some (!b) := by
    intro x b hx hb
    rcases hcase x b hb with ⟨rfl, rfl⟩ | ⟨rfl, rfl⟩ | ⟨h1, h2, hb⟩
    · exact hsv
    · rw [fv, cross_cross hh ho bfw, P.gf w bw]; exact hsw
    · exact hso _ _ (F.pairs x b hx hb)
  have filled : ∀ last', off ≤ last' ∧ last' ≤ off + 2 * h →
      (∀ x, Block h off x → x < last' → sideStep side w v x ≠ none) →
      Filled f g s e h off cols rows r0 (sideStep side w v) ((routed.set (w - off) true).set (v - off) true) n2 m2 r4
        last' := by
    intro last' h1 h2
    exact ⟨by simp [hlen], hrouted, on2, om2, hdone, sr4, hframe, hpairs, h2, h1⟩
  have hbefore : ∀ x, Block h off x → x < last → sideStep side w v x ≠ none := by
    intro x hx hlt
    obtain ⟨b, hb⟩ := Option.ne_none_iff_exists'.1 (F.before x hx hlt)
    rw [hso x b hb]; simp
  have hbody : benesBody d p inv s e off (2 * h) ⟨routed, w, last, np, npi, routing⟩ =
      (if (sideStep side w v (cross h v)).isSome = false then
        some (⟨(routed.set (w - off) true).set (v - off) true, cross h v, last, n2, m2, r4⟩, true)
      else if benesAdvance ((routed.set (w - off) true).set (v - off) true) off last = off + 2 * h then
        some (⟨(routed.set (w - off) true).set (v - off) true, w,
          benesAdvance ((routed.set (w - off) true).set (v - off) true) off last, n2, m2, r4⟩, false)
      else some (⟨(routed.set (w - off) true).set (v - off) true,
          benesAdvance ((routed.set (w - off) true).set (v - off) true) off last,
          benesAdvance ((routed.set (w - off) true).set (v - off) true) off last, n2, m2, r4⟩, true)) := by
    have hcv1 : off ≤ cross h v := bcv.1
    simp only [benesBody, P.get w bw, L.lhs w bw, L.rhs _ bfw, L.setL w bw, L.setR _ bfw, L.crossR _ bfw, hr1, hn1, hr2, hm1,
      P.get_inv _ bvp, ← hv, L.rhs _ bvp, L.setR _ bvp, L.lhs v bv, L.setL v bv, hr3, hm2, hr4, hn2, L.crossL v bv,
      hrv, hrouted _ bcv, hw1, hw2, hv1, hcv1, and_self, guard, if_true, Option.bind_eq_bind, Option.bind_some,
      Option.pure_def]
  rw [hbody]
  -- the neighbours
  have hother : sideStep side w v (cross h v) = none ∨ sideStep side w v (cross h v) = some true := by
    cases hs : sideStep side w v (cross h v) with
    | none => exact Or.inl rfl
    | some b =>
      right
      rcases hcase _ b hs with ⟨-, rfl⟩ | ⟨h1, -⟩ | ⟨h1, h2, hb⟩
      · rfl
      · exact absurd h1 (cross_ne hh ho bv)
      · rcases hchain _ b bcv hb with h3 | ⟨-, ⟨rfl, -⟩ | ⟨-, h3⟩⟩
        · rw [cross_cross hh ho bv, nv] at h3; simp at h3
        · rfl
        · exfalso; apply hwv
          rw [← cross_cross hh ho bv, h3, cross_cross hh ho bw]
  rcases hother with hnone | hsome
  · rw [if_pos (by rw [hnone]; rfl)]
    refine ⟨_, true, rfl, filled last F.lastIn hbefore, ?_⟩
    rw [if_pos rfl]
    refine ⟨bcv, hnone, ?_⟩
    -- the start of the chain is the old one, or `w`
    refine ⟨if side (cross h w) = none then some w else a, Or.inr (by rw [cross_cross hh ho bv]; exact hsv), ?_⟩
    intro x b hx hb
    rcases hcase x b hb with ⟨rfl, rfl⟩ | ⟨rfl, rfl⟩ | ⟨h1, h2, hb⟩
    · rcases ha with ⟨ha1, -⟩ | ha1
      · have hcw : cross h x ≠ v := by
          intro e'
          rw [← e', cross_cross hh ho bw, e', hsw] at hnone
          simp at hnone
        right
        refine ⟨?_, Or.inl ⟨rfl, by rw [if_pos ha1]⟩⟩
        unfold sideStep
        rw [if_neg (cross_ne hh ho bw), if_neg hcw, ha1]
      · left; exact hso _ _ ha1
    · right
      exact ⟨hnone, Or.inr ⟨rfl, by rw [cross_cross hh ho bv]⟩⟩
    · rcases hchain x b hx hb with h3 | ⟨h3, ⟨rfl, h4⟩ | ⟨rfl, h4⟩⟩
      · left; exact hso _ _ h3
      · right
        rcases ha with ⟨-, ha2⟩ | ha1
        · rw [ha2] at h4; simp at h4
        · refine ⟨?_, Or.inl ⟨rfl, by rw [ha1]; simpa using h4⟩⟩
          unfold sideStep
          have e1 : cross h x ≠ w := by
            intro e
            rw [← e, cross_cross hh ho hx, hb] at ha1
            simp at ha1
          have e2 : cross h x ≠ v := by
            intro e'
            rw [← e', cross_cross hh ho hx, e', hso x _ hb] at hnone
            simp at hnone
          rw [if_neg e1, if_neg e2, h3]
      · left
        rw [h4, cross_cross hh ho bw]
        exact hsw
  · rw [if_neg (by rw [hsome]; simp)]
    have hclosed : Closed h off (sideStep side w v) := by
      intro x b hx hb
      rcases hcase x b hb with ⟨rfl, rfl⟩ | ⟨rfl, rfl⟩ | ⟨h1, h2, hb⟩
      · rcases ha with ⟨ha1, ha2⟩ | ha1
        · -- a fresh start that closes at once
          rcases hcase _ _ hsome with ⟨h3, -⟩ | ⟨-, h3⟩ | ⟨h3, h4, h5⟩
          · have : cross h x = v := by rw [← h3, cross_cross hh ho bv]
            rw [this]; exact hsv
          · simp at h3
          · exfalso
            rcases hchain _ _ bcv h5 with h6 | ⟨-, ⟨-, h6⟩ | ⟨h6, -⟩⟩
            · rw [cross_cross hh ho bv, nv] at h6; simp at h6
            · rw [ha2] at h6; simp at h6
            · simp at h6
        · exact hso _ _ ha1
      · exact hsome
      · rcases hchain x b hx hb with h3 | ⟨h3, ⟨rfl, h4⟩ | ⟨rfl, h4⟩⟩
        · exact hso _ _ h3
        · rcases ha with ⟨-, ha2⟩ | ha1
          · rw [ha2] at h4; simp at h4
          · rcases hcase _ _ hsome with ⟨h5, -⟩ | ⟨-, h5⟩ | ⟨h5, h6, h7⟩
            · exfalso
              rw [← h5, cross_cross hh ho bv, nv] at ha1
              simp at ha1
            · simp at h5
            · rcases hchain _ _ bcv h7 with h8 | ⟨-, ⟨-, h8⟩ | ⟨h8, -⟩⟩
              · rw [cross_cross hh ho bv, nv] at h8; simp at h8
              · have : x = cross h v := by
                  rw [h4] at h8
                  exact Option.some.inj h8
                rw [this, cross_cross hh ho bv]
                exact hsv
              · simp at h8
        · rw [h4, cross_cross hh ho bw]; exact hsw
    set routed' := (routed.set (w - off) true).set (v - off) true with hr'
    have hl' : routed'.length = 2 * h := by rw [hr']; simp [hlen]
    obtain ⟨A1, A2, A3, A4⟩ := advance_spec routed' off last F.lastIn.1 (by rw [hl']; exact F.lastIn.2)
    rw [hl'] at A2 A4
    have hbef : ∀ x, Block h off x → x < benesAdvance routed' off last → sideStep side w v x ≠ none := by
      intro x hx hlt
      by_cases h1 : x < last
      · exact hbefore x hx h1
      · have := A3 x (by omega) hlt
        rw [hrouted x hx] at this
        intro hn
        rw [hn] at this
        simp at this
    have F' := filled (benesAdvance routed' off last) ⟨by have := F.lastIn.1; omega, A2⟩ hbef
    split
    · rename_i hend
      refine ⟨_, false, rfl, F', ?_⟩
      rw [if_neg (by simp)]
      refine ⟨hclosed, fun x hx => hbef x hx ?_⟩
      rw [hend]; exact hx.2
    · rename_i hend
      refine ⟨_, true, rfl, F', ?_⟩
      rw [if_pos rfl]
      have hblk : Block h off (benesAdvance routed' off last) := ⟨by have := F.lastIn.1; omega, by omega⟩
      have hnew : sideStep side w v (benesAdvance routed' off last) = none := by
        have := A4 (by omega)
        rw [hrouted _ hblk] at this
        cases hs : sideStep side w v (benesAdvance routed' off last) with
        | none => rfl
        | some b => rw [hs] at this; simp at this
      refine ⟨hblk, hnew, none, Or.inl ⟨?_, rfl⟩, fun x b hx hb => Or.inl (hclosed x b hx hb)⟩
      cases hs : sideStep side w v (cross h (benesAdvance routed' off last)) with
      | none => rfl
      | some b =>
        have := hclosed _ b (cross_block hh ho hblk) hs
        rw [cross_cross hh ho hblk, hnew] at this
        simp at this

end Benes

end Crypto3Zk
