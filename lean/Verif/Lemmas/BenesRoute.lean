import Verif.Lemmas.Benes
import Verif.Lemmas.IntegerPermutation
import Mathlib.Algebra.Order.Ring.Nat
import Mathlib.Data.Finset.Card
import Mathlib.Order.Interval.Finset.Nat

/-! # The loop and the recursion of the Benes router -/

namespace Crypto3Zk.Benes

open IntPerm

/-! ## the loop -/

/-- the packets without a side -/
def unrouted (h off : Nat) (side : Nat → Option Bool) : Finset Nat :=
  (Finset.Ico off (off + 2 * h)).filter fun x => side x = none

theorem unrouted_step {h off : Nat} {side : Nat → Option Bool} {w v : Nat} (hw : Block h off w) (hn : side w = none) :
    (unrouted h off (sideStep side w v)).card + 1 ≤ (unrouted h off side).card := by
  have h1 : w ∈ unrouted h off side := by
    simp only [unrouted, Finset.mem_filter, Finset.mem_Ico]
    exact ⟨hw, hn⟩
  have h2 : unrouted h off (sideStep side w v) ⊆ (unrouted h off side).erase w := by
    intro x hx
    rw [unrouted, Finset.mem_filter] at hx
    rw [Finset.mem_erase, unrouted, Finset.mem_filter]
    obtain ⟨hx1, hx2⟩ := hx
    unfold sideStep at hx2
    split_ifs at hx2 with e1 e2
    exact ⟨e1, hx1, hx2⟩
  have h3 := Finset.card_le_card h2
  have h4 := Finset.card_pos.2 ⟨w, h1⟩
  rw [Finset.card_erase_of_mem h1] at h3
  omega

theorem loop_spec {d s e h off cols rows : Nat} (L : Level d s e h off cols rows) {p inv : IntPerm} {f g : Nat → Nat}
    (P : Perm h off p inv f g) (r0 : BenesRouting) :
    ∀ (fuel : Nat) (side : Nat → Option Bool) (st : BenesState),
      (unrouted h off side).card ≤ fuel →
      Filled f g s e h off cols rows r0 side st.lhsRouted st.newPermutation st.newPermutationInv st.routing
        st.lastUnrouted → Chain h off side st.w →
      ∃ (side' : Nat → Option Bool) (st' : BenesState), benesLoop d p inv s e off (2 * h) fuel st = some st' ∧
        Filled f g s e h off cols rows r0 side' st'.lhsRouted st'.newPermutation st'.newPermutationInv st'.routing
          st'.lastUnrouted ∧ Closed h off side' ∧ ∀ x, Block h off x → side' x ≠ none
  | 0, side, st, hf, F, C => by
    have := unrouted_step (v := 0) C.block C.new
    omega
  | fuel + 1, side, st, hf, F, C => by
    obtain ⟨st', cont, hb, F', hc⟩ := body_spec L P r0 side st F C
    have hcard := unrouted_step (v := g (cross h (f st.w))) C.block C.new
    cases cont with
    | true =>
      rw [if_pos rfl] at hc
      obtain ⟨side', st'', hl, h2⟩ := loop_spec L P r0 fuel _ st' (by omega) F' hc
      refine ⟨side', st'', ?_, h2⟩
      simp only [benesLoop, hb, Option.bind_eq_bind, Option.bind_some, if_true, hl]
    | false =>
      rw [if_neg (by simp)] at hc
      exact ⟨_, st', by simp [benesLoop, hb], F', hc.1, hc.2⟩

/-! ## permutation objects on an interval -/

/-- the interval of `n` numbers from `off` -/
def In (n off x : Nat) : Prop := off ≤ x ∧ x < off + n

/-- an object with its inverse, as functions -/
structure BPerm (n off : Nat) (p inv : IntPerm) (f g : Nat → Nat) : Prop where
  pos : 0 < n
  wf : p.WF
  min : p.minElement = off
  max : p.maxElement = off + n - 1
  wf_inv : inv.WF
  min_inv : inv.minElement = off
  max_inv : inv.maxElement = off + n - 1
  f_in : ∀ x, In n off x → In n off (f x)
  g_in : ∀ x, In n off x → In n off (g x)
  gf : ∀ x, In n off x → g (f x) = x
  fg : ∀ x, In n off x → f (g x) = x
  get : ∀ x, In n off x → p.get x = some (f x)
  get_inv : ∀ x, In n off x → inv.get x = some (g x)

theorem ext_get {p q : IntPerm} (hp : p.WF) (hq : q.WF) (h1 : p.minElement = q.minElement)
    (h2 : p.maxElement = q.maxElement) (h : ∀ x, p.InRange x → p.get x = q.get x) : p = q := by
  obtain ⟨c, lo, hi⟩ := p
  obtain ⟨c', lo', hi'⟩ := q
  simp only at h1 h2
  subst h1 h2
  obtain ⟨w1, w2⟩ := hp
  obtain ⟨-, w3⟩ := hq
  simp only at w1 w2 w3
  congr
  apply List.ext_getElem? 
  intro i
  by_cases hi' : i < c.length
  · have := h (lo + i) ⟨by simp, by simp only; omega⟩
    simp only [IntPerm.get] at this
    rw [if_pos ⟨by omega, by omega⟩, if_pos ⟨by omega, by omega⟩] at this
    simpa using this
  · rw [List.getElem?_eq_none (by omega), List.getElem?_eq_none (by omega)]

theorem BPerm.bijection {n off : Nat} {p inv : IntPerm} {f g : Nat → Nat} (B : BPerm n off p inv f g) :
    p.IsBijection := by
  have hpos := B.pos
  have hr : ∀ x, p.InRange x ↔ In n off x := by
    intro x
    unfold InRange In
    rw [B.min, B.max]
    omega
  constructor
  · intro i hi
    exact ⟨f i, B.get i ((hr i).1 hi), (hr _).2 (B.f_in i ((hr i).1 hi))⟩
  · intro v hv
    have hv' := (hr v).1 hv
    refine ⟨g v, ⟨(hr _).2 (B.g_in v hv'), by rw [B.get _ (B.g_in v hv'), B.fg v hv']⟩, ?_⟩
    rintro i ⟨h1, h2⟩
    rw [B.get i ((hr i).1 h1)] at h2
    rw [← Option.some.inj h2, B.gf i ((hr i).1 h1)]

theorem BPerm.valid {n off : Nat} {p inv : IntPerm} {f g : Nat → Nat} (B : BPerm n off p inv f g) :
    p.isValid = true := (valid_iff_bijection p B.wf).2 B.bijection

theorem BPerm.size {n off : Nat} {p inv : IntPerm} {f g : Nat → Nat} (B : BPerm n off p inv f g) (hn : n < 2 ^ 64) :
    p.size = n := by
  have := B.pos
  unfold IntPerm.size
  rw [B.min, B.max]
  omega

theorem BPerm.inverse {n off : Nat} {p inv : IntPerm} {f g : Nat → Nat} (B : BPerm n off p inv f g) :
    p.inverse = some inv := by
  have hpos := B.pos
  obtain ⟨q, hq, q1, q2, qw, qi⟩ := inverse_spec p B.wf B.valid
  rw [hq]
  congr
  apply ext_get qw B.wf_inv (by rw [q1, B.min, B.min_inv]) (by rw [q2, B.max, B.max_inv])
  intro x hx
  have hx' : In n off x := by
    obtain ⟨h1, h2⟩ := hx
    rw [q1, B.min] at h1
    rw [q2, B.max] at h2
    exact ⟨h1, by omega⟩
  rw [B.get_inv x hx']
  apply qi
  rw [B.get _ (B.g_in x hx'), B.fg x hx']

theorem slice_get {p : IntPerm} (hw : p.WF) {lo hi : Nat} (h1 : p.minElement ≤ lo) (h2 : lo ≤ hi)
    (h3 : hi ≤ p.maxElement) :
    ∃ q, p.slice lo hi = some q ∧ q.WF ∧ q.minElement = lo ∧ q.maxElement = hi ∧
      ∀ i, lo ≤ i → i ≤ hi → q.get i = p.get i := by
  obtain ⟨w1, w2⟩ := hw
  refine ⟨⟨(p.contents.drop (lo - p.minElement)).take (hi - lo + 1), lo, hi⟩, ?_, ⟨h2, ?_⟩, rfl, rfl, ?_⟩
  · unfold IntPerm.slice
    rw [if_pos ⟨h1, h2, h3⟩, if_pos (by omega)]
  · simp only [List.length_take, List.length_drop]
    omega
  · intro i hi1 hi2
    unfold IntPerm.get
    simp only
    rw [if_pos ⟨hi1, hi2⟩, if_pos ⟨by omega, by omega⟩, List.getElem?_take_of_lt (by omega), List.getElem?_drop]
    congr 1
    omega

/-! ## following the switches -/

/-- where the switch in front of row `x` of column `c` sends a packet -/
def next (d : Nat) (r : BenesRouting) (c x : Nat) : Nat := if cell r c x then x ^^^ benesMask d c else x

/-- through `n` columns from column `s` -/
def go (d : Nat) (r : BenesRouting) : Nat → Nat → Nat → Nat
  | _, 0, x => x
  | s, n + 1, x => go d r (s + 1) n (next d r s x)

theorem go_succ (d : Nat) (r : BenesRouting) : ∀ (n s x : Nat), go d r s (n + 1) x = next d r (s + n) (go d r s n x)
  | 0, s, x => by simp [go]
  | n + 1, s, x => by
    rw [go, go_succ d r n (s + 1)]
    rw [show s + 1 + n = s + (n + 1) by omega]
    rfl

/-- the masks of the middle columns are smaller than the blocks -/
theorem mask_pow {d s k c : Nat} (hd : s + (k + 1) = d) (h1 : s ≤ c) (h2 : c < d + (k + 1)) :
    ∃ j, j ≤ k ∧ benesMask d c = 2 ^ j := by
  unfold benesMask
  split
  · exact ⟨d - 1 - c, by omega, by rw [Nat.one_shiftLeft]⟩
  · exact ⟨c - d, by omega, by rw [Nat.one_shiftLeft]⟩

theorem in_iff_div {k off x : Nat} (ho : 2 ^ k ∣ off) : In (2 ^ k) off x ↔ x / 2 ^ k = off / 2 ^ k := by
  obtain ⟨q, rfl⟩ := ho
  have hpos : 0 < 2 ^ k := Nat.two_pow_pos k
  rw [Nat.mul_div_cancel_left q hpos, Nat.div_eq_iff hpos, In, Nat.mul_comm q]
  constructor <;> intro h <;> constructor <;> omega

theorem xor_in {k off x j : Nat} (ho : 2 ^ k ∣ off) (hj : j < k) (hx : In (2 ^ k) off x) :
    In (2 ^ k) off (x ^^^ 2 ^ j) := by
  rw [in_iff_div ho] at hx ⊢
  rw [← hx, ← Nat.shiftRight_eq_div_pow, ← Nat.shiftRight_eq_div_pow, Nat.shiftRight_xor_distrib]
  have : 2 ^ j >>> k = 0 := by
    rw [Nat.shiftRight_eq_div_pow]
    exact Nat.div_eq_of_lt (Nat.pow_lt_pow_right (by omega) hj)
  rw [this, Nat.xor_zero]

/-- two routings that agree on a block and its columns, with a walk that stays in the block -/
theorem go_congr {d : Nat} {r r' : BenesRouting} {A : Nat → Prop} : ∀ (n s x : Nat), A x →
    (∀ c y, s ≤ c → c < s + n → A y → A (y ^^^ benesMask d c)) →
    (∀ c y, s ≤ c → c < s + n → A y → cell r c y = cell r' c y) →
    go d r s n x = go d r' s n x ∧ A (go d r s n x)
  | 0, s, x, hx, _, _ => ⟨rfl, hx⟩
  | n + 1, s, x, hx, hA, hc => by
    have e : next d r s x = next d r' s x := by
      unfold next
      rw [hc s x (by omega) (by omega) hx]
    have hnx : A (next d r s x) := by
      unfold next
      split
      · exact hA s x (by omega) (by omega) hx
      · exact hx
    rw [go, go, ← e]
    exact go_congr n (s + 1) _ hnx (fun c y h1 h2 => hA c y (by omega) (by omega))
      (fun c y h1 h2 => hc c y (by omega) (by omega))

/-! ## the recursion -/

theorem level {d s k off : Nat} (hd : s + (k + 1) = d) (h64 : d < 64) (ho : 2 ^ (k + 1) ∣ off)
    (hoff : off + 2 ^ (k + 1) ≤ 2 ^ d) : Level d s (d + (k + 1)) (2 ^ k) off (2 * d) (2 ^ d) := by
  have e2 : 2 * 2 ^ k = 2 ^ (k + 1) := by rw [pow_succ]; omega
  have mL : benesMask d s = 2 ^ k := by
    unfold benesMask
    rw [if_pos (by omega), Nat.one_shiftLeft, show d - 1 - s = k by omega]
  have mR : benesMask d (d + (k + 1) - 1) = 2 ^ k := by
    unfold benesMask
    rw [if_neg (by omega), Nat.one_shiftLeft, show d + (k + 1) - 1 - d = k by omega]
  have hlt : ∀ x, Block (2 ^ k) off x → x < 2 ^ 64 := by
    intro x hx
    have h1 := hx.2
    have h2 : 2 ^ d < 2 ^ 64 := Nat.pow_lt_pow_right (by omega) h64
    omega
  have hl : ∀ c, benesMask d c = 2 ^ k → ∀ x, Block (2 ^ k) off x → ∀ b,
      benesLhsDestination d c x b = dest (2 ^ k) b x := by
    intro c hc x hx b
    unfold benesLhsDestination dest
    simp only [hc]
    rw [and_eq_top k x (by omega) (hlt x hx), or_eq_bot]
  refine ⟨Nat.two_pow_pos k, by rw [e2]; exact ho, by omega, by omega, by omega, by rw [e2]; exact hoff, hl s mL, ?_, ?_,
    ?_, ?_, ?_⟩
  · intro x hx b
    unfold benesRhsSource
    exact hl _ mR x hx b
  · intro x hx b
    unfold benesSetting
    rw [hl s mL x hx b]
  · intro x hx b
    unfold benesSetting
    rw [hl _ mR x hx b]
  · intro x _
    unfold benesCrossDestination
    rw [mL, xor_eq_cross]
  · intro x _
    unfold benesCrossSource benesCrossDestination
    rw [mR, xor_eq_cross]

/-- what a call of the recursion leaves behind -/
structure Routed (d s k off : Nat) (f : Nat → Nat) (r r' : BenesRouting) : Prop where
  shape : Shape (2 * d) (2 ^ d) r'
  frame : ∀ c y, ¬ (s ≤ c ∧ c < d + k ∧ In (2 ^ k) off y) → cell r' c y = cell r c y
  walk : ∀ x, In (2 ^ k) off x → go d r' s (2 * k) x = f x
  agree : ∀ c x, s ≤ c → c < d + k → In (2 ^ k) off x → cell r' c (x ^^^ benesMask d c) = cell r' c x

theorem inner_spec (d : Nat) (h64 : d < 64) : ∀ (k s off fuel : Nat) (p inv : IntPerm) (f g : Nat → Nat) (r : BenesRouting),
    s + k = d → 2 ^ k ∣ off → off + 2 ^ k ≤ 2 ^ d → k < fuel → BPerm (2 ^ k) off p inv f g → Shape (2 * d) (2 ^ d) r →
    ∃ r', benesInner d fuel p inv s (d + k) off (2 ^ k) r = some r' ∧ Routed d s k off f r r'
  | 0, s, off, fuel + 1, p, inv, f, g, r, hd, ho, hoff, hfuel, B, hr => by
    have hs : p.size = 2 ^ 0 := B.size (by norm_num)
    refine ⟨r, ?_, ⟨hr, fun _ _ _ => rfl, ?_, ?_⟩⟩
    · have : s = d + 0 := by omega
      simp only [benesInner, hs, B.valid, B.inverse, guard, if_true, Option.bind_eq_bind, Option.bind_some,
        Option.pure_def, this]
    · intro x hx
      have h1 := B.f_in x hx
      have : f x = x := by
        unfold In at hx h1
        omega
      rw [this]
      rfl
    · intro c x h1 h2
      omega
  | k + 1, s, off, fuel + 1, p, inv, f, g, r, hd, ho, hoff, hfuel, B, hr => by
    have hpos : 0 < 2 ^ k := Nat.two_pow_pos k
    have e2 : 2 ^ (k + 1) = 2 * 2 ^ k := by rw [pow_succ]; omega
    have L := level hd h64 ho hoff
    set h := 2 ^ k with hh
    have hin : ∀ x, In (2 ^ (k + 1)) off x ↔ Block h off x := by
      intro x; unfold In Block; rw [e2]
    have hd2 : 2 ^ (k + 1) ≤ 2 ^ d := Nat.pow_le_pow_right (by omega) (by omega)
    have hd3 : 2 ^ d < 2 ^ 64 := Nat.pow_lt_pow_right (by omega) h64
    have hs : p.size = 2 ^ (k + 1) := B.size (by omega)
    have P : Perm h off p inv f g :=
      ⟨fun x hx => (hin _).1 (B.f_in x ((hin x).2 hx)), fun x hx => (hin _).1 (B.g_in x ((hin x).2 hx)),
        fun x hx => B.gf x ((hin x).2 hx), fun x hx => B.fg x ((hin x).2 hx), fun x hx => B.get x ((hin x).2 hx),
        fun x hx => B.get_inv x ((hin x).2 hx)⟩
    -- the loop
    have hrange : IntPerm.ofRange off (off + 2 ^ (k + 1) - 1) =
        some ⟨List.range' off (off + 2 ^ (k + 1) - 1 - off + 1), off, off + 2 ^ (k + 1) - 1⟩ := by
      rw [IntPerm.ofRange, if_pos (by omega)]
    have honb : OnBlock h off ⟨List.range' off (off + 2 ^ (k + 1) - 1 - off + 1), off, off + 2 ^ (k + 1) - 1⟩ := by
      refine ⟨⟨?_, ?_⟩, rfl, ?_⟩
      · simp only; omega
      · simp
      · simp only; rw [e2]
    have hcard : (unrouted h off fun _ => none).card ≤ 2 ^ (k + 1) := by
      unfold unrouted
      refine (Finset.card_filter_le _ _).trans ?_
      rw [Nat.card_Ico, e2]
      omega
    obtain ⟨side, st, hloop, F, hclosed, htotal⟩ := loop_spec L P r (2 ^ (k + 1)) (fun _ => none)
      ⟨List.replicate (2 ^ (k + 1)) false, off, off, _, _, r⟩ hcard
      ⟨by simp [e2], by
        intro x hx
        have := hx.1
        have := hx.2
        rw [List.getElem?_replicate_of_lt (by omega)]
        rfl, honb, honb, by simp, hr, fun _ _ _ => rfl, by simp, by
        intro x hx hlt
        exact absurd hlt (Nat.not_lt.2 hx.1), ⟨le_refl _, Nat.le_add_right _ _⟩⟩
      ⟨⟨le_refl _, by show off < _; omega⟩, rfl, none, Or.inl ⟨rfl, rfl⟩, by simp⟩
    have ho2 := L.dvd
    -- the packet of a half, on the left and on the right
    have hleft : ∀ b y, Block h off y → (y < off + h ↔ b = true) → ∃ x, Block h off x ∧ side x = some b ∧
        dest h b x = y := by
      intro b y hy hb
      have hdy : dest h b y = y := by
        unfold dest
        rw [top_eq hpos ho2 hy, bot_eq hpos ho2 hy]
        cases b
        · simp at hb; simp [Nat.not_lt.2 hb]
        · simp at hb; simp [hb]
      obtain ⟨c, hc⟩ := Option.ne_none_iff_exists'.1 (htotal y hy)
      by_cases hcb : c = b
      · exact ⟨y, hy, by rw [hc, hcb], hdy⟩
      · refine ⟨cross h y, cross_block hpos ho2 hy, ?_, by rw [dest_cross hpos ho2 hy, hdy]⟩
        rw [hclosed y c hy hc]
        cases b <;> cases c <;> simp_all
    have hright : ∀ b z, Block h off z → (z < off + h ↔ b = true) → ∃ x, Block h off x ∧ side x = some b ∧
        dest h b (f x) = z := by
      intro b z hz hb
      have hdz : dest h b z = z := by
        unfold dest
        rw [top_eq hpos ho2 hz, bot_eq hpos ho2 hz]
        cases b
        · simp at hb; simp [Nat.not_lt.2 hb]
        · simp at hb; simp [hb]
      have bg := P.g_block z hz
      obtain ⟨c, hc⟩ := Option.ne_none_iff_exists'.1 (htotal (g z) bg)
      by_cases hcb : c = b
      · exact ⟨g z, bg, by rw [hc, hcb], by rw [P.fg z hz, hdz]⟩
      · have := F.pairs (g z) c bg hc
        rw [P.fg z hz] at this
        have bc := cross_block hpos ho2 hz
        refine ⟨g (cross h z), P.g_block _ bc, ?_, by rw [P.fg _ bc, dest_cross hpos ho2 hz, hdz]⟩
        rw [this]
        cases b <;> cases c <;> simp_all
    set f' : Nat → Nat := fun y => (st.newPermutation.get y).getD 0 with hf'
    set g' : Nat → Nat := fun y => (st.newPermutationInv.get y).getD 0 with hg'
    have hfdest : ∀ x b, Block h off x → side x = some b → f' (dest h b x) = dest h b (f x) := by
      intro x b hx hb
      rw [hf']
      simp only [(F.done x b hx hb).1, Option.getD_some]
    have hgdest : ∀ x b, Block h off x → side x = some b → g' (dest h b (f x)) = dest h b x := by
      intro x b hx hb
      rw [hg']
      simp only [(F.done x b hx hb).2.1, Option.getD_some]
    -- the permutations of the halves
    have halfIn : ∀ b y, In h (off + if b then 0 else h) y ↔ Block h off y ∧ (y < off + h ↔ b = true) := by
      intro b y
      unfold In Block
      cases b <;> simp <;> omega
    have half : ∀ b : Bool, ∃ q qi, st.newPermutation.slice (off + if b then 0 else h) (off + (if b then 0 else h) + h - 1) = some q ∧
        st.newPermutationInv.slice (off + if b then 0 else h) (off + (if b then 0 else h) + h - 1) = some qi ∧
        BPerm h (off + if b then 0 else h) q qi f' g' := by
      intro b
      obtain ⟨w1, w2, w3⟩ := F.npOn
      obtain ⟨v1, v2, v3⟩ := F.npiOn
      have hb1 : (if b then 0 else h) ≤ h := by split <;> omega
      obtain ⟨q, hq, qw, q1, q2, qg⟩ := slice_get w1 (lo := off + if b then 0 else h)
        (hi := off + (if b then 0 else h) + h - 1) (by omega) (by omega) (by omega)
      obtain ⟨qi, hqi, qiw, qi1, qi2, qig⟩ := slice_get v1 (lo := off + if b then 0 else h)
        (hi := off + (if b then 0 else h) + h - 1) (by omega) (by omega) (by omega)
      refine ⟨q, qi, hq, hqi, hpos, qw, q1, q2, qiw, qi1, qi2, ?_, ?_, ?_, ?_, ?_, ?_⟩
      · intro y hy
        obtain ⟨hy1, hy2⟩ := (halfIn b y).1 hy
        obtain ⟨x, hx, hxs, rfl⟩ := hleft b y hy1 hy2
        rw [hfdest x b hx hxs]
        exact (halfIn b _).2 ⟨dest_block hpos ho2 (P.f_block x hx) b, dest_half hpos ho2 (P.f_block x hx) b⟩
      · intro z hz
        obtain ⟨hz1, hz2⟩ := (halfIn b z).1 hz
        obtain ⟨x, hx, hxs, rfl⟩ := hright b z hz1 hz2
        rw [hgdest x b hx hxs]
        exact (halfIn b _).2 ⟨dest_block hpos ho2 hx b, dest_half hpos ho2 hx b⟩
      · intro y hy
        obtain ⟨hy1, hy2⟩ := (halfIn b y).1 hy
        obtain ⟨x, hx, hxs, rfl⟩ := hleft b y hy1 hy2
        rw [hfdest x b hx hxs, hgdest x b hx hxs]
      · intro z hz
        obtain ⟨hz1, hz2⟩ := (halfIn b z).1 hz
        obtain ⟨x, hx, hxs, rfl⟩ := hright b z hz1 hz2
        rw [hgdest x b hx hxs, hfdest x b hx hxs]
      · intro y hy
        rw [qg y hy.1 (by have := hy.2; omega)]
        obtain ⟨hy1, hy2⟩ := (halfIn b y).1 hy
        obtain ⟨x, hx, hxs, rfl⟩ := hleft b y hy1 hy2
        rw [hfdest x b hx hxs, (F.done x b hx hxs).1]
      · intro z hz
        rw [qig z hz.1 (by have := hz.2; omega)]
        obtain ⟨hz1, hz2⟩ := (halfIn b z).1 hz
        obtain ⟨x, hx, hxs, rfl⟩ := hright b z hz1 hz2
        rw [hgdest x b hx hxs, (F.done x b hx hxs).2.1]
    obtain ⟨qt, qti, sl1, sl3, Bt⟩ := half true
    obtain ⟨qb, qbi, sl2, sl4, Bb⟩ := half false
    simp only [if_true, Bool.false_eq_true, if_false, Nat.add_zero] at sl1 sl2 sl3 sl4 Bt Bb
    have hdvd : h ∣ off := Dvd.dvd.trans ⟨2, by omega⟩ ho2
    obtain ⟨r1, i1, R1⟩ := inner_spec d h64 k (s + 1) off fuel qt qti f' g' st.routing (by omega) hdvd (by omega) (by omega)
      Bt F.shape
    obtain ⟨r2, i2, R2⟩ := inner_spec d h64 k (s + 1) (off + h) fuel qb qbi f' g' r1 (by omega)
      ((Nat.dvd_add_right hdvd).2 (dvd_refl _)) (by omega) (by omega) Bb R1.shape
    have hdiv : 2 ^ (k + 1) / 2 = h := by omega
    refine ⟨r2, ?_, ?_⟩
    · have hne : ¬ s = d + (k + 1) := by omega
      have he : d + (k + 1) - 1 = d + k := by omega
      have hend : off + 2 ^ (k + 1) - 1 = off + h + h - 1 := by omega
      rw [← e2] at hloop
      simp only [benesInner, hs, B.valid, B.inverse, guard, if_true, Option.bind_eq_bind, Option.bind_some,
        Option.pure_def, if_neg hne, hrange, hloop, hdiv, sl1, sl3, he]
      rw [hend, sl2, Option.bind_some, sl4, Option.bind_some]
      rw [← hh] at i1 i2
      rw [i1, Option.bind_some]
      exact i2
    · -- cells
      have cellS : ∀ y, cell r2 s y = cell st.routing s y := by
        intro y
        rw [R2.frame s y (by omega), R1.frame s y (by omega)]
      have cellE : ∀ y, cell r2 (d + (k + 1) - 1) y = cell st.routing (d + (k + 1) - 1) y := by
        intro y
        rw [R2.frame _ y (by omega), R1.frame _ y (by omega)]
      have mL : benesMask d s = h := by
        unfold benesMask
        rw [if_pos (by omega), Nat.one_shiftLeft, show d - 1 - s = k by omega]
      have mR : benesMask d (d + (k + 1) - 1) = h := by
        unfold benesMask
        rw [if_neg (by omega), Nat.one_shiftLeft, show d + (k + 1) - 1 - d = k by omega]
      have hdisj : ∀ y, In h off y → ¬ In h (off + h) y := by
        intro y h1 h2
        unfold In at h1 h2
        omega
      have cellT : ∀ c y, In h off y → cell r2 c y = cell r1 c y := by
        intro c y hy
        exact R2.frame c y (fun hh => hdisj y hy hh.2.2)
      have agreeMid : ∀ c x, s + 1 ≤ c → c < d + k → Block h off x → cell r2 c (x ^^^ benesMask d c) = cell r2 c x := by
        intro c x h1 h2 hx
        by_cases hlt : x < off + h
        · have hxin : In h off x := ⟨hx.1, hlt⟩
          cases k with
          | zero => omega
          | succ k =>
            obtain ⟨j, hj, hm⟩ := mask_pow (d := d) (s := s + 1) (k := k) (c := c) (by omega) h1 h2
            have hx2 := xor_in hdvd (show j < k + 1 by omega) hxin
            rw [← hm] at hx2
            rw [cellT c _ hx2, cellT c _ hxin]
            exact R1.agree c x h1 h2 hxin
        · refine R2.agree c x h1 h2 ⟨by omega, ?_⟩
          have := hx.2
          omega
      refine ⟨R2.shape, ?_, ?_, ?_⟩
      · intro c y hcy
        rw [hin] at hcy
        have hnot : ∀ o, (o = off ∨ o = off + h) → In h o y → Block h off y := by
          intro o ho' hy
          obtain ⟨h1, h2⟩ := hy
          unfold Block
          rcases ho' with rfl | rfl <;> omega
        rw [R2.frame c y (by rintro ⟨h1, h2, h3⟩; exact hcy ⟨by omega, by omega, hnot _ (Or.inr rfl) h3⟩),
          R1.frame c y (by rintro ⟨h1, h2, h3⟩; exact hcy ⟨by omega, by omega, hnot _ (Or.inl rfl) h3⟩)]
        refine F.frame c y ?_
        rintro ⟨rfl | rfl, h2⟩
        · exact hcy ⟨by omega, by omega, h2⟩
        · exact hcy ⟨by omega, by omega, h2⟩
      · intro x hx
        have hx := (hin x).1 hx
        obtain ⟨b, hb⟩ := Option.ne_none_iff_exists'.1 (htotal x hx)
        obtain ⟨d1, d2, d3, d4⟩ := F.done x b hx hb
        have bf := P.f_block x hx
        -- the first column
        have first : next d r2 s x = dest h b x := by
          unfold next
          rw [cellS, d3, mL]
          have := dest_or hpos ho2 hx b
          rw [hh, xor_eq_cross, ← hh]
          exact this.symm
        -- the middle
        have middle : go d r2 (s + 1) (2 * k) (dest h b x) = dest h b (f x) := by
          rw [← hfdest x b hx hb]
          have hy : Block h off (dest h b x) := dest_block hpos ho2 hx b
          have hhalf := dest_half hpos ho2 hx b
          cases b with
          | true =>
            have hyin : In h off (dest h true x) := ⟨hy.1, hhalf.2 rfl⟩
            rw [← R1.walk _ hyin]
            refine (go_congr (A := In h off) _ _ _ hyin ?_ ?_).1
            · intro c y h1 h2 hy
              cases k with
              | zero => omega
              | succ k =>
                obtain ⟨j, hj, hm⟩ := mask_pow (d := d) (s := s + 1) (k := k) (c := c) (by omega) h1 (by omega)
                rw [hm]
                exact xor_in hdvd (by omega) hy
            · intro c y _ _ hy
              exact cellT c y hy
          | false =>
            have : ¬ dest h false x < off + h := by
              intro hc
              simpa using hhalf.1 hc
            exact R2.walk _ ⟨by omega, by have := hy.2; omega⟩
        rw [show 2 * (k + 1) = (2 * k + 1) + 1 by omega, go_succ, go, first, middle,
          show s + (2 * k + 1) = d + (k + 1) - 1 by omega]
        -- the last column
        unfold next
        rw [cellE, d4, mR, hh, xor_eq_cross, ← hh]
        by_cases hfx : f x = dest h b (f x)
        · rw [if_neg (by simpa using hfx), ← hfx]
        · rw [if_pos (by simpa using hfx), cross_dest hpos ho2 bf]
          have := dest_or hpos ho2 bf b
          rw [if_pos (by simpa using hfx)] at this
          have h2 := cross_dest hpos ho2 bf b
          rw [this, cross_cross hpos ho2 bf] at h2
          exact h2.symm
      · intro c x h1 h2 hx
        have hx := (hin x).1 hx
        have bcx := cross_block hpos ho2 hx
        have hxc : ∀ y, y ^^^ h = cross h y := by
          intro y
          rw [hh, xor_eq_cross]
        by_cases hcs : c = s
        · subst hcs
          rw [mL, hxc, cellS, cellS]
          obtain ⟨b, hb⟩ := Option.ne_none_iff_exists'.1 (htotal x hx)
          rw [(F.done x b hx hb).2.2.1, (F.done _ _ bcx (hclosed x b hx hb)).2.2.1, dest_cross hpos ho2 hx,
            ← cross_dest hpos ho2 hx b]
          have : cross h x = cross h (dest h b x) ↔ x = dest h b x := by
            constructor
            · intro e
              have := congrArg (cross h) e
              rwa [cross_cross hpos ho2 hx, cross_cross hpos ho2 (dest_block hpos ho2 hx b)] at this
            · intro e
              rw [← e]
          simp only [bne, beq_eq_decide, this]
        · by_cases hce : c = d + (k + 1) - 1
          · subst hce
            rw [mR, hxc, cellE, cellE]
            obtain ⟨b, hb⟩ : ∃ b : Bool, (x < off + h ↔ b = true) := ⟨decide (x < off + h), by simp⟩
            obtain ⟨y, hy, hys, rfl⟩ := hright b x hx hb
            have bfy := P.f_block y hy
            have bcf := cross_block hpos ho2 bfy
            have hp := F.pairs y b hy hys
            have d1 := (F.done y b hy hys).2.2.2
            have d2 := (F.done _ _ (P.g_block _ bcf) hp).2.2.2
            rw [P.fg _ bcf, dest_cross hpos ho2 bfy] at d2
            rw [d1, cross_dest hpos ho2 bfy, d2, ← cross_dest hpos ho2 bfy b]
            have : cross h (f y) = cross h (dest h b (f y)) ↔ f y = dest h b (f y) := by
              constructor
              · intro e
                have := congrArg (cross h) e
                rwa [cross_cross hpos ho2 bfy, cross_cross hpos ho2 (dest_block hpos ho2 bfy b)] at this
              · intro e
                rw [← e]
            simp only [bne, beq_eq_decide, this]
          · exact agreeMid c x (by omega) (by omega) hx

end Crypto3Zk.Benes
