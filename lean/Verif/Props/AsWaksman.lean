import Verif.Lemmas.AsWaksmanCheck
import Verif.Spec.IntegerPermutation
import Verif.Props.IntegerPermutation

/-!
# C25: every permutation is routed correctly through the arbitrary-size Waksman network

`PacketPerm n p`: an object of the permutation class on the packets `0, …, n - 1` that is valid, for any `n ≥ 2`.
-/

namespace Crypto3Zk

open IntPerm Waksman
open Benes (In BPerm)

/-- a valid permutation of the packets `0, …, n - 1` -/
structure PacketPerm (n : Nat) (p : IntPerm) : Prop where
  two : 2 ≤ n
  bound : n < 2 ^ 64
  wf : p.WF
  min : p.minElement = 0
  max : p.maxElement = n - 1
  valid : p.isValid = true

theorem PacketPerm.bperm {n : Nat} {p : IntPerm} (hp : PacketPerm n p) :
    ∃ inv g, p.inverse = some inv ∧ BPerm n 0 p inv (fun i => (p.get i).getD 0) g := by
  obtain ⟨htwo, -, hw, h1, h2, hv⟩ := hp
  obtain ⟨q, hq, qw, -, q1, q2, ql, qr⟩ := C13_inverse p hw hv
  have hr : ∀ x, p.InRange x ↔ In n 0 x := by
    intro x
    unfold InRange In
    rw [h1, h2]
    omega
  obtain ⟨b1, b2⟩ := (valid_iff_bijection p hw).1 hv
  refine ⟨q, fun i => (q.get i).getD 0, hq, by omega, hw, h1, by rw [h2]; omega, qw, by rw [q1, h1],
    by rw [q2, h2]; omega, ?_, ?_, ?_, ?_, ?_, ?_⟩
  · intro x hx
    obtain ⟨v, hv1, hv2⟩ := b1 x ((hr x).2 hx)
    rw [hv1]
    exact (hr v).1 hv2
  · intro x hx
    obtain ⟨i, hi1, hi2⟩ := qr x ((hr x).2 hx)
    rw [hi1]
    exact (hr i).1 (get_some p i x hi2).1
  · intro x hx
    obtain ⟨v, hv1, hv2⟩ := ql x ((hr x).2 hx)
    simp only [hv1, hv2, Option.getD_some]
  · intro x hx
    obtain ⟨i, hi1, hi2⟩ := qr x ((hr x).2 hx)
    simp only [hi1, hi2, Option.getD_some]
  · intro x hx
    obtain ⟨v, hv1, hv2⟩ := ql x ((hr x).2 hx)
    rw [hv1, Option.getD_some]
  · intro x hx
    obtain ⟨i, hi1, hi2⟩ := qr x ((hr x).2 hx)
    rw [hi1, Option.getD_some]

theorem PacketPerm.size {n : Nat} {p : IntPerm} (hp : PacketPerm n p) : p.size = n := by
  obtain ⟨inv, g, -, B⟩ := hp.bperm
  exact B.size hp.bound

theorem PacketPerm.get {n : Nat} {p : IntPerm} (hp : PacketPerm n p) {i : Nat} (hi : i < n) :
    p.get i = some ((p.get i).getD 0) ∧ (p.get i).getD 0 < n := by
  obtain ⟨inv, g, -, B⟩ := hp.bperm
  have hin : In n 0 i := ⟨by omega, by omega⟩
  refine ⟨B.get i hin, ?_⟩
  have := (B.f_in i hin).2
  omega

theorem PacketPerm.inj {n : Nat} {p : IntPerm} (hp : PacketPerm n p) {i j : Nat} (hi : i < n) (hj : j < n)
    (e : (p.get i).getD 0 = (p.get j).getD 0) : i = j := by
  obtain ⟨inv, g, -, B⟩ := hp.bperm
  rw [← B.gf i ⟨by omega, by omega⟩, ← B.gf j ⟨by omega, by omega⟩]
  exact congrArg g e

theorem getAsWaksmanRouting_eq {n k : Nat} {p inv : IntPerm} (hp : PacketPerm n p) (hinv : p.inverse = some inv)
    (hw : awNumColumns n = 2 * k + 1) : getAsWaksmanRouting p =
      awRoute (2 * k + 1 + 1) 0 (2 * k) 0 (n - 1) p inv (List.replicate (2 * k + 1) fun _ => none) := by
  have h1 := hp.size
  unfold getAsWaksmanRouting
  extract_lets N W
  have hW : W = 2 * k + 1 := by rw [← hw, ← h1]
  have hN : N = n := h1
  clear_value W N
  subst hW hN
  rw [hinv, guard, if_pos (by omega), Option.pure_def, Option.bind_eq_bind, Option.bind_some, Option.bind_eq_bind,
    Option.bind_some, Nat.add_sub_cancel]

theorem validAsWaksmanRouting_eq {n : Nat} {p inv : IntPerm} (hp : PacketPerm n p) (hinv : p.inverse = some inv)
    {t : AsWaksmanTopology} (ht : awTopology n = some t) (r : AsWaksmanRouting) : validAsWaksmanRouting p r =
      ((List.range (awNumColumns n)).foldlM (awColumn t r n) (IntPerm.ofSize n)).bind fun q =>
        some (decide (q = inv)) := by
  have h1 := hp.size
  unfold validAsWaksmanRouting
  extract_lets N W
  have hN : N = n := h1
  have hW : W = awNumColumns n := by rw [← h1]
  clear_value W N
  subst hW hN
  rw [ht, hinv, Option.bind_eq_bind, Option.bind_some, Option.bind_eq_bind]
  rfl

/-- the checker on settings that send different rows to different rows in every column -/
theorem valid_of_maps {n : Nat} {p : IntPerm} (hp : PacketPerm n p) {t : AsWaksmanTopology} (N : Net n t)
    (ht : awTopology n = some t) {r : AsWaksmanRouting} (hm : ∀ c < awNumColumns n, ColumnMaps n t r c) :
    validAsWaksmanRouting p r = some true ↔
      ∀ x < n, walk t r 0 (awNumColumns n) x = some ((p.get x).getD 0) := by
  obtain ⟨inv, g, hinv, B⟩ := hp.bperm
  obtain ⟨q, e, o, hq⟩ := columns_maps hp.two hp.bound N _ (le_refl _) hm
  rw [validAsWaksmanRouting_eq hp hinv ht, e, Option.bind_some]
  simp only [Option.some.injEq, decide_eq_true_eq]
  have hin : ∀ x, x < n → In n 0 x := fun x hx => ⟨by omega, by omega⟩
  have hinvget : ∀ x, x < n → inv.get ((p.get x).getD 0) = some x := by
    intro x hx
    rw [B.get_inv _ (B.f_in x (hin x hx)), B.gf x (hin x hx)]
  constructor
  · intro h x hx
    obtain ⟨v, w1, w2, w3⟩ := hq x hx
    rw [w1, Option.some.injEq]
    rw [h, B.get_inv v (hin v w2), Option.some.injEq] at w3
    rw [← B.fg v (hin v w2), w3]
  · intro h
    refine Benes.ext_get o.1 B.wf_inv (by rw [o.2.1, B.min_inv]) (by rw [o.2.2, B.max_inv]) ?_
    intro y hy
    have hyn : y < n := by
      have h2 := hy.2
      rw [o.2.2] at h2
      have := hp.two
      omega
    obtain ⟨v, w1, w2, w3⟩ := hq (g y) (by have := B.g_in y (hin y hyn); unfold In at this; omega)
    rw [h _ (by have := B.g_in y (hin y hyn); unfold In at this; omega), Option.some.injEq, B.fg y (hin y hyn)] at w1
    rw [← w1] at w3
    rw [w3, B.get_inv y (hin y hyn)]

theorem FitsWaksman.noWrap {n : Nat} (h : n < 2 ^ 64) {t : AsWaksmanTopology} {r : AsWaksmanRouting}
    (hf : FitsWaksman n t r) : NoWrap r := fun m hm => hf.2 m hm _ (by omega)

theorem FitsWaksman.len {n : Nat} {t : AsWaksmanTopology} (N : Net n t) {r : AsWaksmanRouting}
    (hf : FitsWaksman n t r) : r.length = awNumColumns n := by rw [hf.1, N.shape.1]

theorem waksmanCarries_iff {n : Nat} {p : IntPerm} (hp : PacketPerm n p) {t : AsWaksmanTopology} (N : Net n t)
    {r : AsWaksmanRouting} (hl : r.length = awNumColumns n) (hr : NoWrap r) : WaksmanCarriesAll t r p ↔
      ∀ x < n, walk t r 0 (awNumColumns n) x = some ((p.get x).getD 0) := by
  unfold WaksmanCarriesAll
  rw [hp.size]
  refine forall₂_congr fun i hi => ?_
  rw [follow_eq hp.bound N hl hr hi, (hp.get hi).1]
  simp only [Option.some.injEq, Option.getD_some]
  constructor
  · rintro ⟨v, rfl, h⟩
    exact h
  · intro h
    exact ⟨_, rfl, h⟩

theorem maps_of_carries {n : Nat} {p : IntPerm} (hp : PacketPerm n p) {t : AsWaksmanTopology} (N : Net n t)
    {r : AsWaksmanRouting} (hwalk : ∀ x < n, walk t r 0 (awNumColumns n) x = some ((p.get x).getD 0)) :
    ∀ c < awNumColumns n, ColumnMaps n t r c := by
  intro c hc
  refine maps_of_walk N (awNumColumns n) 0 (by omega) ?_ ?_ c (by omega) hc
  · intro x hx
    exact ⟨_, hwalk x hx⟩
  · intro x y v hx hy e1 e2
    rw [hwalk x hx] at e1
    rw [hwalk y hy, ← e1] at e2
    exact (hp.inj hy hx (Option.some.inj e2)).symm

theorem topology_net {n : Nat} (hn : 2 ≤ n) {t : AsWaksmanTopology} (ht : awTopology n = some t) : Net n t := by
  obtain ⟨k, t', -, -, h, -, N⟩ := topology_spec hn
  rw [ht] at h
  rw [Option.some.inj h]
  exact N

/-- C25: the topology for `n ≥ 2` packets exists, has `2⌈log₂ n⌉ - 1` columns, and each of them is a column of
wires and `2 × 2` switches between adjacent rows. -/
theorem C25_topology {n : Nat} (hn : 2 ≤ n) : ∃ topology, awTopology n = some topology ∧
    topology.length = 2 * Nat.clog 2 n - 1 ∧ ∀ edges ∈ topology, SwitchColumn n edges := by
  obtain ⟨k, t, k2, hw, ht, -, N⟩ := topology_spec hn
  refine ⟨t, ht, ?_, N.switchColumns⟩
  rw [N.shape.1, awNumColumns]
  split <;> omega

/-- C25: the router succeeds on every permutation of `n ≥ 2` packets. Following the switches it sets through the
topology of the network takes packet `i` to `p(i)`, for every packet; and the checker accepts the routing. -/
theorem C25_routes {n : Nat} {p : IntPerm} (hp : PacketPerm n p) :
    ∃ topology routing, awTopology n = some topology ∧ getAsWaksmanRouting p = some routing ∧
      FitsWaksman n topology routing ∧ WaksmanCarriesAll topology routing p ∧
      validAsWaksmanRouting p routing = some true := by
  obtain ⟨inv, g, hinv, B⟩ := hp.bperm
  obtain ⟨k, t, k2, hw, ht, hT, N⟩ := topology_spec hp.two
  have h2 := hp.two
  have h64 := hp.bound
  have hempty : ∀ c y, cellR (List.replicate (2 * k + 1) fun _ => none) c y = none := by
    intro c y
    unfold cellR
    rw [List.getD_eq_getElem?_getD, List.getElem?_replicate]
    split <;> rfl
  obtain ⟨r, hr, R⟩ := route_spec (2 * k + 1) k (2 * k + 1 + 1) 0 0 n p inv _ g
    (List.replicate (2 * k + 1) fun _ => none) B k2 (by omega) (by omega) (by simp) (by omega) (by omega)
    (fun c y _ _ _ => hempty c y)
  have hl : r.length = awNumColumns n := by rw [R.len, hw]
  have hout : ∀ m ∈ r, ∀ y, n ≤ y → m y = none := by
    intro m hm y hy
    obtain ⟨c, hc, rfl⟩ := List.mem_iff_getElem.1 hm
    have h1 := R.frame c y (by unfold In; omega)
    rw [hempty] at h1
    have h2 := cellR_get R.len (c := c) (by rw [← R.len]; exact hc)
    rw [List.getElem?_eq_getElem hc] at h2
    rw [Option.some.inj h2]
    exact h1
  have hf : FitsWaksman n t r := ⟨by rw [hl, N.shape.1], hout⟩
  have hwalk : ∀ x < n, walk t r 0 (awNumColumns n) x = some ((p.get x).getD 0) := by
    intro x hx
    rw [hw]
    exact R.walks n t id r (by have := N.shape; rwa [hw] at this) (by omega) hT R.len (fun _ _ _ _ _ => rfl) x
      ⟨by omega, by omega⟩
  refine ⟨t, r, ht, ?_, hf, (waksmanCarries_iff hp N hl (hf.noWrap hp.bound)).2 hwalk, ?_⟩
  · rw [getAsWaksmanRouting_eq hp hinv hw]
    simp only [Nat.zero_add] at hr
    exact hr
  · exact (valid_of_maps hp N ht (maps_of_carries hp N hwalk)).2 hwalk

/-- C25: the checker is exact on the settings on which the two rows of every switch agree: whatever produced them,
settings for the rows of the network carry every packet to its destination if and only if the rows agree and
the checker accepts. In particular it accepts all settings that carry every packet. -/
theorem C25_checker {n : Nat} {p : IntPerm} (hp : PacketPerm n p) {topology : AsWaksmanTopology}
    (ht : awTopology n = some topology) {routing : AsWaksmanRouting} (hf : FitsWaksman n topology routing) :
    WaksmanCarriesAll topology routing p ↔
      WaksmanSwitchesAgree topology routing ∧ validAsWaksmanRouting p routing = some true := by
  have N := topology_net hp.two ht
  have hl := hf.len N
  have hr := hf.noWrap hp.bound
  rw [waksmanCarries_iff hp N hl hr]
  constructor
  · intro hwalk
    have hm := maps_of_carries hp N hwalk
    refine ⟨?_, (valid_of_maps hp N ht hm).2 hwalk⟩
    intro c edges switches hE hS x y e hx hne hy
    have hc : c < awNumColumns n := by rw [← N.shape.1]; exact (List.getElem?_eq_some_iff.1 hE).1
    have hlen : edges.length = n := N.shape.2 _ (List.mem_of_getElem? hE)
    have hxn : x < n := by rw [← hlen]; exact (List.getElem?_eq_some_iff.1 hx).1
    have hyn : y < n := by rw [← hlen]; exact (List.getElem?_eq_some_iff.1 hy).1
    have hb := hp.bound
    obtain ⟨v, hv⟩ := (hm c hc).1 x hxn
    obtain ⟨w, hw⟩ := (hm c hc).1 y hyn
    have hxy : x ≠ y := by
      rintro rfl
      rw [hx] at hy
      exact hne (congrArg Prod.fst (Option.some.inj hy))
    have hv' := hv
    have hw' := hw
    rw [routed_eq hr hE hS hx (by omega), if_neg hne] at hv
    rw [routed_eq hr hE hS hy (by omega), if_neg (Ne.symm hne)] at hw
    obtain ⟨a, ha, rfl⟩ := Option.map_eq_some_iff.1 hv
    obtain ⟨b, hb, rfl⟩ := Option.map_eq_some_iff.1 hw
    rw [ha, hb]
    by_contra hab
    apply hxy
    refine (hm c hc).2 x y _ hxn hyn hv' ?_
    rw [hw']
    cases a <;> cases b <;> simp_all
  · rintro ⟨ha, hv⟩
    have htot : ∀ c < awNumColumns n, ∀ x < n, ∃ v, awRouted topology routing c x = some v := by
      obtain ⟨inv, g, hinv, B⟩ := hp.bperm
      rw [validAsWaksmanRouting_eq hp hinv ht] at hv
      obtain ⟨q, h1, -⟩ := Option.bind_eq_some_iff.1 hv
      exact columns_total _ _ _ h1
    exact (valid_of_maps hp N ht fun c hc => maps_of_agree hp.bound N hl hr ha hc (htot c hc)).1 hv

/-- C25: without that agreement the checker is not exact. For the identity on three packets it accepts settings under
which packet `1` ends in row `2`: the settings of the middle column are stored under the rows `0` and `2` although its
switch joins the rows `1` and `2`, which read different settings; packet `1` is overwritten by packet `2`, and
the unwritten row `1` holds its own number. -/
theorem C25_checker_not_exact :
    ∃ (p : IntPerm) (topology : AsWaksmanTopology) (routing : AsWaksmanRouting), PacketPerm 3 p ∧
      awTopology 3 = some topology ∧ FitsWaksman 3 topology routing ∧
      validAsWaksmanRouting p routing = some true ∧ p.get 1 = some 1 ∧ followWaksman topology routing 1 = some 2 := by
  refine ⟨⟨[0, 1, 2], 0, 2⟩, [[(0, 1), (1, 0), (2, 2)], [(0, 0), (1, 2), (2, 1)], [(0, 1), (1, 0), (2, 2)]],
    [fun x => if x = 0 then some false else none,
     fun x => if x = 0 then some true else if x = 2 then some false else none,
     fun x => if x = 0 then some false else none],
    ⟨by omega, by omega, ⟨by decide +kernel, by decide +kernel⟩, rfl, rfl, by decide +kernel⟩, by decide +kernel,
    ⟨rfl, ?_⟩, by decide +kernel, by decide +kernel, by decide +kernel⟩
  intro column hc x hx
  simp only [List.mem_cons, List.not_mem_nil, or_false] at hc
  have h0 : x ≠ 0 := by omega
  have h2 : x ≠ 2 := by omega
  rcases hc with rfl | rfl | rfl <;> simp [h0, h2]

/-- C25: for fewer than two packets there is no column and the router leaves its vectors. -/
theorem C25_single (p : IntPerm) (h : p.size ≤ 1) : getAsWaksmanRouting p = none := by
  have hw : awNumColumns p.size = 0 := by rw [awNumColumns, if_neg (by omega)]
  unfold getAsWaksmanRouting
  extract_lets N W
  have hW : W = 0 := hw
  clear_value W
  subst hW
  rfl

example : getAsWaksmanRouting ⟨[0], 0, 0⟩ = none := C25_single _ (by decide +kernel)

/-- a permutation of five packets that meets the hypotheses: an odd number, both subnetworks in use -/
theorem exPerm5 : PacketPerm 5 ⟨[3, 0, 4, 1, 2], 0, 4⟩ :=
  ⟨by omega, by omega, ⟨by decide +kernel, by decide +kernel⟩, rfl, rfl, by decide +kernel⟩

example : ∃ routing, getAsWaksmanRouting ⟨[3, 0, 4, 1, 2], 0, 4⟩ = some routing ∧
    validAsWaksmanRouting ⟨[3, 0, 4, 1, 2], 0, 4⟩ routing = some true := by
  obtain ⟨_, r, -, h1, -, -, h2⟩ := C25_routes exPerm5
  exact ⟨r, h1, h2⟩

/-- settings that fit and carry every packet, as the theorem on the checker takes them -/
example : ∃ topology routing, awTopology 5 = some topology ∧ FitsWaksman 5 topology routing ∧
    WaksmanSwitchesAgree topology routing ∧ WaksmanCarriesAll topology routing ⟨[3, 0, 4, 1, 2], 0, 4⟩ := by
  obtain ⟨t, r, h0, -, h1, h2, -⟩ := C25_routes exPerm5
  exact ⟨t, r, h0, h1, ((C25_checker exPerm5 h0 h1).1 h2).1, h2⟩

end Crypto3Zk
