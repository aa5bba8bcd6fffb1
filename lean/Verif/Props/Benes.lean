import Verif.Lemmas.BenesCheck
import Verif.Spec.IntegerPermutation
import Verif.Props.IntegerPermutation

/-!
# C24: every permutation is routed correctly through the Benes network

`PermOf d p`: an object of the permutation class on the `2^d` packets `0, …, 2^d - 1` that is valid.
-/

namespace Crypto3Zk

open IntPerm Benes

/-- a valid permutation of the packets `0, …, 2^d - 1`, with less than `2^64` packets -/
structure PermOf (d : Nat) (p : IntPerm) : Prop where
  dim : d < 64
  wf : p.WF
  min : p.minElement = 0
  max : p.maxElement = 2 ^ d - 1
  valid : p.isValid = true

theorem PermOf.bperm {d : Nat} {p : IntPerm} (hp : PermOf d p) :
    ∃ inv g, p.inverse = some inv ∧ BPerm (2 ^ d) 0 p inv (fun i => (p.get i).getD 0) g := by
  obtain ⟨-, hw, h1, h2, hv⟩ := hp
  have hpos := Nat.two_pow_pos d
  obtain ⟨q, hq, qw, -, q1, q2, ql, qr⟩ := C13_inverse p hw hv
  have hr : ∀ x, p.InRange x ↔ In (2 ^ d) 0 x := by
    intro x
    unfold InRange In
    rw [h1, h2]
    omega
  obtain ⟨b1, b2⟩ := (valid_iff_bijection p hw).1 hv
  refine ⟨q, fun i => (q.get i).getD 0, hq, hpos, hw, h1, by rw [h2]; omega, qw, by rw [q1, h1],
    by rw [q2, h2]; omega, ?_, ?_, ?_, ?_, ?_, ?_⟩
  · intro x hx
    obtain ⟨v, hv1, hv2⟩ := b1 x ((hr x).2 hx)
    rw [hv1]
    exact (hr v).1 hv2
  · intro x hx
    obtain ⟨i, hi1, hi2⟩ := qr x ((hr x).2 hx)
    rw [hi1]
    exact (hr i).1 (get_some p i x hi2).1
  · intro x hx
    obtain ⟨v, hv1, hv2⟩ := ql x ((hr x).2 hx)
    simp only [hv1, hv2, Option.getD_some]
  · intro x hx
    obtain ⟨i, hi1, hi2⟩ := qr x ((hr x).2 hx)
    simp only [hi1, hi2, Option.getD_some]
  · intro x hx
    obtain ⟨v, hv1, hv2⟩ := ql x ((hr x).2 hx)
    rw [hv1, Option.getD_some]
  · intro x hx
    obtain ⟨i, hi1, hi2⟩ := qr x ((hr x).2 hx)
    rw [hi1, Option.getD_some]

theorem PermOf.size {d : Nat} {p : IntPerm} (hp : PermOf d p) : p.size = 2 ^ d := by
  obtain ⟨inv, g, -, B⟩ := hp.bperm
  exact B.size (Nat.pow_lt_pow_right (by omega) hp.dim)

theorem PermOf.get {d : Nat} {p : IntPerm} (hp : PermOf d p) {i : Nat} (hi : i < 2 ^ d) :
    p.get i = some ((p.get i).getD 0) ∧ (p.get i).getD 0 < 2 ^ d := by
  obtain ⟨inv, g, -, B⟩ := hp.bperm
  have hin : In (2 ^ d) 0 i := ⟨by omega, by omega⟩
  refine ⟨B.get i hin, ?_⟩
  have := (B.f_in i hin).2
  omega

theorem PermOf.inj {d : Nat} {p : IntPerm} (hp : PermOf d p) {i j : Nat} (hi : i < 2 ^ d) (hj : j < 2 ^ d)
    (e : (p.get i).getD 0 = (p.get j).getD 0) : i = j := by
  obtain ⟨inv, g, -, B⟩ := hp.bperm
  rw [← B.gf i ⟨by omega, by omega⟩, ← B.gf j ⟨by omega, by omega⟩]
  exact congrArg g e

/-- what the checker computes, in terms of the walk -/
theorem valid_eq {d : Nat} {p : IntPerm} (hp : PermOf d p) {r : BenesRouting} (hr : Shape (2 * d) (2 ^ d) r) :
    ∃ (b : Bool) (last : List Nat), validBenesRouting p r = some b ∧
      (b = true ↔ ∀ i < 2 ^ d, last[(p.get i).getD 0]? = some i) ∧
      (∀ q v, last[q]? = some v → v = 0 ∨ v < 2 ^ d ∧ go d r 0 (2 * d) v = q) ∧
      (InjUpTo d r (2 * d) → ∀ x < 2 ^ d, last[go d r 0 (2 * d) x]? = some x) := by
  obtain ⟨out, last, h1, h2, h3, h4, h5, h6⟩ := route_spec hr (List.range (2 ^ d)) (by simp)
  obtain ⟨b, hb, hb'⟩ := check_spec p last (fun i => (p.get i).getD 0) (List.range (2 ^ d)) (by
    intro i hi
    rw [h4]
    exact hp.get (List.mem_range.1 hi))
  refine ⟨b, last, ?_, by simpa using hb', ?_, ?_⟩
  · simp only [validBenesRouting, hp.size, numColumns_eq, h1, h3, Option.bind_eq_bind, Option.bind_some]
    exact hb
  · intro q v h
    rcases h5 q v h with h7 | ⟨x, hx, h7, h8⟩
    · exact Or.inl h7
    · rw [List.getElem?_range hx] at h7
      obtain rfl := Option.some.inj h7
      exact Or.inr ⟨hx, h8⟩
  · intro hinj x hx
    rw [h6 hinj x hx, List.getElem?_range hx]

theorem getBenesRouting_eq {d : Nat} {p inv : IntPerm} (hp : PermOf d p) (hinv : p.inverse = some inv) :
    getBenesRouting p = benesInner d (d + 1) p inv 0 (2 * d) 0 (2 ^ d)
      (List.replicate (2 * d) (List.replicate (2 ^ d) false)) := by
  have h1 : benesNumColumns p.size = some (2 * d) := by rw [hp.size, numColumns_eq]
  have h2 : benesDimension p.size = some d := by rw [hp.size, dimension_eq]
  unfold getBenesRouting
  rw [← hp.size]
  extract_lets N
  rw [show benesNumColumns N = some (2 * d) from h1, show benesDimension N = some d from h2, hinv,
    Option.bind_eq_bind, Option.bind_some, Option.bind_eq_bind, Option.bind_some, Option.bind_some]

/-- C24: the router succeeds on every permutation of `2^d` packets. Following the switches it sets through the
topology of the network takes packet `i` to `p(i)`, for every packet; the rows that share a switch agree on
its setting; and the checker accepts the routing. -/
theorem C24_routes {d : Nat} {p : IntPerm} (hp : PermOf d p) :
    ∃ topology routing, benesTopology (2 ^ d) = some topology ∧ getBenesRouting p = some routing ∧
      FitsTopology topology routing ∧ SwitchesAgree topology routing ∧ CarriesAll topology routing p ∧
      validBenesRouting p routing = some true := by
  obtain ⟨inv, g, hinv, B⟩ := hp.bperm
  have hrep : Shape (2 * d) (2 ^ d) (List.replicate (2 * d) (List.replicate (2 ^ d) false)) :=
    ⟨by simp, fun c hc => by rw [List.eq_of_mem_replicate hc]; simp⟩
  obtain ⟨r, hr, R⟩ := inner_spec d hp.dim d 0 0 (d + 1) p inv _ g _ (by omega) (by simp) (by omega) (by omega) B hrep
  have hag := (agree_iff R.shape).2 fun c x hc hx => R.agree c x (by omega) (by omega) ⟨by omega, by omega⟩
  have hwalk : ∀ x < 2 ^ d, go d r 0 (2 * d) x = (p.get x).getD 0 := fun x hx => R.walk x ⟨by omega, by omega⟩
  refine ⟨_, r, topology_eq d, ?_, shape_iff.2 R.shape, hag, ?_, ?_⟩
  · rw [← two_mul] at hr
    rw [getBenesRouting_eq hp hinv, hr]
  · intro i hi
    rw [hp.size] at hi
    exact ⟨_, (hp.get hi).1, by rw [follow_eq R.shape hi, hwalk i hi]⟩
  · obtain ⟨b, last, h1, h2, h3, h4⟩ := valid_eq hp R.shape
    rw [h1, h2.2]
    intro i hi
    have := h4 (inj_of_agree ((agree_iff R.shape).1 hag)) i hi
    rwa [hwalk i hi] at this

theorem carriesAll_iff {d : Nat} {p : IntPerm} (hp : PermOf d p) {r : BenesRouting} (hr : Shape (2 * d) (2 ^ d) r) :
    CarriesAll ((List.range (2 * d)).map (edges d)) r p ↔ ∀ i < 2 ^ d, go d r 0 (2 * d) i = (p.get i).getD 0 := by
  unfold CarriesAll
  rw [hp.size]
  refine forall₂_congr fun i hi => ?_
  rw [follow_eq hr hi, (hp.get hi).1]
  simp only [Option.some.injEq, Option.getD_some]
  constructor
  · rintro ⟨v, rfl, h⟩
    exact h
  · intro h
    exact ⟨_, rfl, h⟩

/-- C24: any payload is carried: routing the vector `start` through settings that carry all packets puts
`start[i]` at position `p(i)` of the last column. -/
theorem C24_payload {d : Nat} {p : IntPerm} (hp : PermOf d p) {topology : BenesTopology}
    (ht : benesTopology (2 ^ d) = some topology) {routing : BenesRouting} (hf : FitsTopology topology routing)
    (hc : CarriesAll topology routing p) {T : Type} [Inhabited T] (start : List T) (hs : start.length = 2 ^ d) :
    ∃ columns last, routeByBenes routing start = some columns ∧ columns.getLast? = some last ∧
      last.length = 2 ^ d ∧ ∀ i < 2 ^ d, ∃ v, p.get i = some v ∧ last[v]? = start[i]? := by
  rw [topology_eq] at ht
  obtain rfl := Option.some.inj ht
  have hr := shape_iff.1 hf
  have hgo := (carriesAll_iff hp hr).1 hc
  obtain ⟨out, last, h1, h2, h3, h4, h5, h6⟩ := route_spec hr start hs
  refine ⟨out, last, h1, ?_, h4, ?_⟩
  · rw [List.getLast?_eq_getElem?, h2]
    exact h3
  · intro i hi
    refine ⟨_, (hp.get hi).1, ?_⟩
    rw [← hgo i hi]
    refine h6 ?_ i hi
    intro c hc'
    refine inj_of_go (2 * d) 0 (by omega) ?_ c (by omega) hc'
    intro x y hx hy e
    rw [hgo x hx, hgo y hy] at e
    exact hp.inj hx hy e

/-- C24: the checker accepts all settings that carry every packet, however they were found. -/
theorem C24_checker_complete {d : Nat} {p : IntPerm} (hp : PermOf d p) {topology : BenesTopology}
    (ht : benesTopology (2 ^ d) = some topology) {routing : BenesRouting} (hf : FitsTopology topology routing)
    (hc : CarriesAll topology routing p) : validBenesRouting p routing = some true := by
  rw [topology_eq] at ht
  obtain rfl := Option.some.inj ht
  have hr := shape_iff.1 hf
  have hgo := (carriesAll_iff hp hr).1 hc
  obtain ⟨b, last, h1, h2, h3, h4⟩ := valid_eq hp hr
  rw [h1, h2.2]
  intro i hi
  rw [← hgo i hi]
  refine h4 ?_ i hi
  intro c hc'
  refine inj_of_go (2 * d) 0 (by omega) ?_ c (by omega) hc'
  intro x y hx hy e
  rw [hgo x hx, hgo y hy] at e
  exact hp.inj hx hy e

/-- C24, the checker. Full statement: for settings of the right sizes the checker accepts if and only if they
carry every packet. Proved: it gives a verdict; if it accepts, every packet other than packet `0` is carried;
and when the rows that share a switch agree on it, the verdict is exact. Missing: packet `0`, when rows
disagree; see `C24_checker_not_exact`. -/
theorem C24_checker_partial {d : Nat} {p : IntPerm} (hp : PermOf d p) {topology : BenesTopology}
    (ht : benesTopology (2 ^ d) = some topology) {routing : BenesRouting} (hf : FitsTopology topology routing) :
    ∃ b, validBenesRouting p routing = some b ∧
      (b = true → ∀ i < 2 ^ d, i ≠ 0 → ∃ v, p.get i = some v ∧ followSwitches topology routing i = some v) ∧
      (SwitchesAgree topology routing → (b = true ↔ CarriesAll topology routing p)) := by
  rw [topology_eq] at ht
  obtain rfl := Option.some.inj ht
  have hr := shape_iff.1 hf
  obtain ⟨b, last, h1, h2, h3, h4⟩ := valid_eq hp hr
  refine ⟨b, h1, ?_, ?_⟩
  · intro hb i hi hi0
    refine ⟨_, (hp.get hi).1, ?_⟩
    rw [follow_eq hr hi]
    rcases h3 _ _ (h2.1 hb i hi) with h | ⟨-, h⟩
    · exact absurd h hi0
    · rw [h]
  · intro hag
    rw [h2, carriesAll_iff hp hr]
    have hl := h4 (inj_of_agree ((agree_iff hr).1 hag))
    have hinj := inj_of_agree ((agree_iff hr).1 hag)
    constructor
    · intro h i hi
      -- the row `p(i)` of the last column holds `i`, and only the packet `i` ends with the value `i`
      rcases h3 _ _ (h i hi) with h0 | ⟨-, h⟩
      · subst h0
        -- the walk is a bijection: some packet ends at `p(0)`, and it is `0`
        have hinjgo : ∀ m, m ≤ 2 * d → ∀ x y, x < 2 ^ d → y < 2 ^ d → go d routing 0 m x = go d routing 0 m y → x = y := by
          intro m
          induction m with
          | zero => intro _ x y _ _ e; exact e
          | succ m ih =>
            intro hm x y hx hy e
            rw [go_succ, go_succ, Nat.zero_add] at e
            exact ih (by omega) x y hx hy (hinj m (by omega) _ _ (go_lt _ m 0 x (by omega) hx)
              (go_lt _ m 0 y (by omega) hy) e)
        have himg : (Finset.range (2 ^ d)).image (go d routing 0 (2 * d)) = Finset.range (2 ^ d) := by
          apply Finset.eq_of_subset_of_card_le
          · intro y hy
            obtain ⟨x, hx, rfl⟩ := Finset.mem_image.1 hy
            exact Finset.mem_range.2 (go_lt _ _ 0 x (by omega) (Finset.mem_range.1 hx))
          · rw [Finset.card_image_of_injOn]
            intro x hx y hy e
            exact hinjgo _ (le_refl _) x y (by simpa using hx) (by simpa using hy) e
        have hmem : (p.get 0).getD 0 ∈ Finset.range (2 ^ d) := Finset.mem_range.2 (hp.get hi).2
        rw [← himg] at hmem
        obtain ⟨x, hx, hxe⟩ := Finset.mem_image.1 hmem
        have := hl x (Finset.mem_range.1 hx)
        rw [hxe, h 0 hi] at this
        rw [← Option.some.inj this] at hxe
        exact hxe
      · exact h
    · intro h i hi
      rw [← h i hi]
      exact hl i hi

/-- C24: without that agreement the checker is not exact. For the exchange of two packets it accepts settings
under which packet `0` is not carried to its place: both packets end in row `0` and the unwritten row `1`
holds the default value `0`. -/
theorem C24_checker_not_exact :
    ∃ (p : IntPerm) (topology : BenesTopology) (routing : BenesRouting), PermOf 1 p ∧
      benesTopology (2 ^ 1) = some topology ∧ FitsTopology topology routing ∧
      validBenesRouting p routing = some true ∧ p.get 0 = some 1 ∧ followSwitches topology routing 0 = some 0 := by
  refine ⟨⟨[1, 0], 0, 1⟩, [[(0, 1), (1, 0)], [(0, 1), (1, 0)]], [[false, true], [false, false]], ⟨by omega, ?_, rfl, rfl, ?_⟩,
    ?_, ?_, ?_, ?_, ?_⟩
  · exact ⟨by decide +kernel, by decide +kernel⟩
  · decide +kernel
  · rw [topology_eq]; decide +kernel
  · rfl
  · have h1 : (⟨[1, 0], 0, 1⟩ : IntPerm).size = 2 ^ 1 := by decide +kernel
    simp only [validBenesRouting, routeByBenes, h1, numColumns_eq, List.length_range, dimension_eq]
    decide +kernel
  · decide +kernel
  · decide +kernel

/-- C24: numbers of packets that are not powers of two are refused by the assertion. -/
theorem C24_other_sizes (p : IntPerm) (h : ∀ d, p.size ≠ 2 ^ d) : getBenesRouting p = none := by
  have : benesDimension p.size = none := by
    rw [benesDimension, if_neg (h _)]
  simp [getBenesRouting, benesNumColumns, this]

/-- a permutation of four packets that meets the hypothesis -/
theorem exPerm4 : PermOf 2 ⟨[2, 0, 3, 1], 0, 3⟩ := ⟨by omega, ⟨by decide +kernel, by decide +kernel⟩, rfl, rfl, by decide +kernel⟩

example : ∃ routing, getBenesRouting ⟨[2, 0, 3, 1], 0, 3⟩ = some routing ∧
    validBenesRouting ⟨[2, 0, 3, 1], 0, 3⟩ routing = some true := by
  obtain ⟨_, r, -, h1, -, -, -, h2⟩ := C24_routes exPerm4
  exact ⟨r, h1, h2⟩

/-- settings that fit, agree and carry every packet, met by the theorems on the checker and on payloads -/
example : ∃ topology routing, benesTopology (2 ^ 2) = some topology ∧ FitsTopology topology routing ∧
    SwitchesAgree topology routing ∧ CarriesAll topology routing ⟨[2, 0, 3, 1], 0, 3⟩ := by
  obtain ⟨t, r, h0, -, h1, h2, h3, -⟩ := C24_routes exPerm4
  exact ⟨t, r, h0, h1, h2, h3⟩

/-- three packets -/
example : getBenesRouting ⟨[2, 0, 1], 0, 2⟩ = none := by
  apply C24_other_sizes
  intro d
  have : (⟨[2, 0, 1], 0, 2⟩ : IntPerm).size = 3 := by decide +kernel
  rw [this]
  rcases d with _ | _ | d
  · omega
  · omega
  · rw [pow_succ, pow_succ]; omega

end Crypto3Zk
