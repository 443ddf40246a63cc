import Verif.Lemmas.AxisNoc
import Verif.Lemmas.MeshOrder
import Verif.Lemmas.NetworkClosed

/-! # The packets of AXI-Stream beats in a network -/

namespace RadSim

section
variable {α β κ : Type} {head tail : α → Bool} {key : α → κ}

theorem packets_append {p q : List α} (hp : Packets head tail key p) (hc : Closed tail p) (hq : Packets head tail key q) :
    Packets head tail key (p ++ q) := by
  refine ⟨?_, List.isChain_append.2 ⟨hp.2, hq.2, fun x hx y hy => ?_⟩⟩
  · cases p with
    | nil => exact hq.1
    | cons a p => exact hp.1
  · have := hc x (Option.mem_def.1 hx)
    exact ⟨by rw [this, hq.1 y hy], fun h => by rw [this] at h; cases h⟩

theorem packets_flatMap {f : β → List α} {l : List β} (hp : ∀ x ∈ l, Packets head tail key (f x) ∧ Closed tail (f x)) :
    Packets head tail key (l.flatMap f) := by
  induction l with
  | nil => exact packets_nil
  | cons x l ih =>
    rw [List.flatMap_cons]
    exact packets_append (hp x (by simp)).1 (hp x (by simp)).2 (ih fun y hy => hp y (by simp [hy]))

theorem packets_range {g : Nat → α} {n : Nat} (h0 : head (g 0) = true) (hh : ∀ i, 0 < i → i < n → head (g i) = false)
    (ht : ∀ i, i + 1 < n → tail (g i) = false) (hk : ∀ i < n, key (g i) = key (g 0)) :
    ∀ m ≤ n, Packets head tail key ((List.range m).map g) := by
  intro m
  induction m with
  | zero => intro _; exact packets_nil
  | succ m ih =>
    intro hm
    rw [List.range_succ, List.map_append, List.map_singleton, packets_snoc]
    refine ⟨ih (by omega), ?_⟩
    cases m with
    | zero => exact h0
    | succ m =>
      refine Fits.of_open (a := g m) (by simp [List.range_succ]) (ht m (by omega)) (hh _ (by omega) (by omega)) ?_
      rw [hk m (by omega), hk (m + 1) (by omega)]

theorem filter_flatMap_all {f : β → List α} {l : List β} {p : α → Bool} {q : β → Bool}
    (h : ∀ x ∈ l, ∀ y ∈ f x, p y = q x) : (l.flatMap f).filter p = (l.filter q).flatMap f := by
  induction l with
  | nil => rfl
  | cons x l ih =>
    rw [List.flatMap_cons, List.filter_append, ih fun y hy => h y (by simp [hy]), List.filter_cons]
    have hx := h x (by simp)
    cases hq : q x with
    | true =>
      rw [List.filter_eq_self.2 fun y hy => by rw [hx y hy, hq]]
      simp
    | false =>
      rw [List.filter_eq_nil_iff.2 fun y hy => by rw [hx y hy, hq]; simp]
      simp

end

namespace AxisNoc

open Router (Flit Hop)
open Routing (Shape Rf dimOrderMesh vcOk)
open Net

/-- The flits of a beat as the network sees them. -/
def netFlits (c : SlaveCfg) (u : Nat) (t : AxisTxn) : List (Flit (Msg BsFlit)) :=
  (beatFlits c t).map fun f => toNet u (injectFlit c.radId c.portalId f)

/-- What the flits of a beat have in common. -/
def keyOf (d : Msg BsFlit) : Nat × Nat × Nat × Nat := (d.src, d.dest, d.cls, d.load.destInterface)

/-- One of these flits. -/
def netFlit (c : SlaveCfg) (u : Nat) (t : AxisTxn) (i : Nat) : Flit (Msg BsFlit) :=
  toNet u (injectFlit c.radId c.portalId (flitOf c.vc (c.flits t.iface) t i))

theorem netFlits_eq (c : SlaveCfg) (u : Nat) (t : AxisTxn) :
    netFlits c u t = (List.range (c.flits t.iface)).map (netFlit c u t) := by
  unfold netFlits beatFlits packetFlits
  rw [List.map_map]
  rfl

theorem inject_node (c : SlaveCfg) (t : AxisTxn) (n i : Nat) :
    (injectFlit c.radId c.portalId (flitOf c.vc n t i)).dest = nodeOf c t := by
  have hlt := t.tdest.isLt
  have hrad : (destRad t.tdest).toNat = t.tdest.toNat / 16384 := by
    simp only [destRad, getRange, BitVec.extractLsb'_toNat, Nat.shiftRight_eq_div_pow]
    omega
  have hloc : (destLocal t.tdest).toNat = t.tdest.toNat % 128 := by
    simp [destLocal, getRange, BitVec.extractLsb'_toNat]
  change (if destRad t.tdest = BitVec.ofNat 7 c.radId then ((destLocal t.tdest).setWidth 21).toNat
      else (BitVec.ofNat 21 c.portalId).toNat) = _
  have hiff : destRad t.tdest = BitVec.ofNat 7 c.radId ↔ t.tdest.toNat / 16384 = c.radId % 128 := by
    constructor
    · intro h
      rw [← hrad, h, BitVec.toNat_ofNat]
    · intro h
      apply BitVec.eq_of_toNat_eq
      rw [hrad, h, BitVec.toNat_ofNat]
  unfold nodeOf
  by_cases h : t.tdest.toNat / 16384 = c.radId % 128
  · rw [if_pos (hiff.mpr h), if_pos h, BitVec.toNat_setWidth, hloc]
    omega
  · rw [if_neg (fun hc => h (hiff.mp hc)), if_neg h, BitVec.toNat_ofNat]

/-- The beats a port accepts have the type of the port. -/
def Ported (c : SlaveCfg) (t : AxisTxn) : Prop := t.iface < c.n ∧ t.type = c.types t.iface

theorem netFlit_key (c : SlaveCfg) (u : Nat) (t : AxisTxn) (i : Nat) :
    keyOf (netFlit c u t i).data = (u, nodeOf c t, clsOf t.type, portOf t) := by
  refine Prod.ext rfl (Prod.ext (inject_node c t _ i) (Prod.ext rfl ?_))
  simp [keyOf, netFlit, toNet, injectFlit, flitOf, portOf]

theorem netFlit_vc {c : SlaveCfg} (hv : c.VcOk) (u : Nat) (t : AxisTxn) (i : Nat) :
    (netFlit c u t i).vc = vcidFromType c.vc t.type := by
  have := (hv t.type).1
  simp only [netFlit, toNet, injectFlit, flitOf, BitVec.toNat_ofNat]
  omega

theorem netFlit_pid (c : SlaveCfg) (u : Nat) (t : AxisTxn) (i : Nat) :
    (netFlit c u t i).pid = (netFlit c u t 0).pid := rfl

theorem netFlits_packets {κ : Type} (c : SlaveCfg) (u : Nat) (t : AxisTxn) (key : Flit (Msg BsFlit) → κ)
    (hk : ∀ i, key (netFlit c u t i) = key (netFlit c u t 0)) :
    Packets Flit.head Flit.tail key (netFlits c u t) ∧ Closed Flit.tail (netFlits c u t) := by
  rw [netFlits_eq]
  have hpos := flits_pos c t.iface
  refine ⟨packets_range rfl ?_ ?_ (fun i _ => hk i) _ (Nat.le_refl _), ?_⟩
  · intro i h1 _
    simp [netFlit, toNet, injectFlit, flitOf]; omega
  · intro i h1
    simp [netFlit, toNet, injectFlit, flitOf]; omega
  · intro a ha
    obtain ⟨k, hk⟩ : ∃ k, c.flits t.iface = k + 1 := ⟨c.flits t.iface - 1, by omega⟩
    rw [hk, List.range_succ] at ha
    simp at ha
    rw [← ha]
    simp [netFlit, toNet, injectFlit, flitOf, hk]

theorem mem_netFlits {c : SlaveCfg} {u : Nat} {t : AxisTxn} {f : Flit (Msg BsFlit)} (h : f ∈ netFlits c u t) :
    ∃ i < c.flits t.iface, f = netFlit c u t i := by
  rw [netFlits_eq] at h
  obtain ⟨i, hi, rfl⟩ := List.mem_map.1 h
  exact ⟨i, List.mem_range.1 hi, rfl⟩

theorem Stream.prefix {c : SlaveCfg} {s : SlaveState} {got : List AxisTxn} {sent : List BsFlit} (h : Stream c s got sent)
    (u : Nat) : sent.map (toNet u) <+: got.flatMap (netFlits c u) := by
  obtain ⟨fs, h1, h2⟩ := h
  have h3 : got.flatMap (netFlits c u) =
      (got.flatMap (beatFlits c)).map fun f => toNet u (injectFlit c.radId c.portalId f) := by
    unfold netFlits
    rw [List.map_flatMap]
  rw [h3, h2, List.map_append, h1, List.map_map]
  exact List.prefix_append _ _

theorem flatMap_packets {κ : Type} {c : SlaveCfg} (hv : c.VcOk) (u : Nat) (got : List AxisTxn)
    (key : Flit (Msg BsFlit) → κ) (hk : ∀ t i, key (netFlit c u t i) = key (netFlit c u t 0)) (v : Nat) :
    Packets Flit.head Flit.tail key (Net.onVc (got.flatMap (netFlits c u)) v) := by
  unfold Net.onVc
  rw [filter_flatMap_all (q := fun t => decide (vcidFromType c.vc t.type = v))]
  · exact packets_flatMap fun t _ => netFlits_packets c u t key (hk t)
  · intro t _ f hf
    obtain ⟨i, _, rfl⟩ := mem_netFlits hf
    rw [netFlit_vc hv]

theorem Stream.packets {κ : Type} {c : SlaveCfg} (hv : c.VcOk) {s : SlaveState} {got : List AxisTxn} {sent : List BsFlit}
    (h : Stream c s got sent) (u : Nat) (key : Flit (Msg BsFlit) → κ)
    (hk : ∀ t i, key (netFlit c u t i) = key (netFlit c u t 0)) (v : Nat) :
    Packets Flit.head Flit.tail key (Net.onVc (sent.map (toNet u)) v) := by
  obtain ⟨z, hz⟩ := (h.prefix u).filter fun f => decide (f.vc = v)
  have := flatMap_packets hv u got key hk v
  unfold Net.onVc at this ⊢
  rw [← hz] at this
  exact packets_prefix this

theorem Stream.mem {c : SlaveCfg} {s : SlaveState} {got : List AxisTxn} {sent : List BsFlit} (h : Stream c s got sent)
    {u : Nat} {f : Flit (Msg BsFlit)} (hf : f ∈ sent.map (toNet u)) : ∃ t ∈ got, ∃ i < c.flits t.iface, f = netFlit c u t i := by
  obtain ⟨t, ht, h1⟩ := List.mem_flatMap.1 ((h.prefix u).subset hf)
  obtain ⟨i, hi, rfl⟩ := mem_netFlits h1
  exact ⟨t, ht, i, hi, rfl⟩

/-! ## arrivals -/

theorem guided_data {δ ρ ρ' : Type} {t : Topo} {N : Nat} {e : Nat → Env δ ρ ρ'} {may : Nat → Flit δ → Prop} (h : Guided t N e may)
    {P : δ → Prop} (hp : ∀ l, t.Source l → ∀ f ∈ injected e l N, P f.data) :
    Guided t N e fun l f => may l f ∧ P f.data where
  enter l hl f hf hh := ⟨h.enter l hl f hf hh, hp l hl f hf⟩
  hop n hn r hr i hi f hh hm p hp' u h1 h2 := ⟨h.hop n hn r hr i hi f hh hm.1 p hp' u h1 h2, hm.2⟩

theorem sameDest_of {l : List (Flit (Msg BsFlit))} (h : Packets Flit.head Flit.tail (fun f => keyOf f.data) l) :
    SameDest ((l.map toBs).map ejectFlit) := by
  have h := h.2
  clear * - h
  induction l with
  | nil => trivial
  | cons a l ih =>
    cases l with
    | nil => trivial
    | cons b l =>
      rw [List.isChain_cons_cons] at h
      refine ⟨fun ht => ?_, ih h.2⟩
      have := h.1.2 ht
      simp only [keyOf, Prod.mk.injEq] at this
      show BitVec.ofNat 5 b.data.load.destInterface = BitVec.ofNat 5 a.data.load.destInterface
      rw [this.2.2.2]

theorem onVc_toBs (l : List (Flit (Msg BsFlit))) (v : Nat) :
    RadSim.onVc v (l.map toBs) = ((Net.onVc l v).map toBs).map ejectFlit := by
  unfold RadSim.onVc Net.onVc
  rw [List.filter_map]
  congr 3

theorem count_toBs (l : List (Flit (Msg BsFlit))) (v : Nat) :
    (l.map toBs).countP (fun g => g.vc == v) = (Net.onVc l v).length := by
  unfold Net.onVc
  rw [List.countP_map, List.countP_eq_length_filter]
  congr 2

theorem count_toNet (u : Nat) (l : List BsFlit) (v : Nat) :
    (Net.onVc (l.map (toNet u)) v).length = l.countP fun g => g.vc == v := by
  unfold Net.onVc
  rw [List.filter_map, List.length_map, List.countP_eq_length_filter]
  congr 2

end AxisNoc

end RadSim
