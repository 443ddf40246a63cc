import Verif.Lemmas.NetworkPackets

/-! # Properties of a network of routers and channels

The wiring is any wiring, and the allocators are only assumed to make valid assignments (C44). The nodes are assumed to
keep their side of the agreement with the network (`Nodes`), the routing function to offer existing outputs. -/

namespace RadSim.Net

open Router (Flit Hop Cfg upto)
open Alloc (Holds Valid asked islip Islip)

variable {δ σ τ ρ ρ' : Type} {VA : Alloc.Cls σ ρ} {SA : Alloc.Cls τ ρ'} {t : Topo} {b : Cfg} {va : Nat → σ} {sa : Nat → τ}
  {N : Nat} {e : Nat → Env δ ρ ρ'} {s : Nat → S δ σ τ}

/-- C78. As long as the nodes respect credits and send whole packets, no part of a network ever stops the program: no
assertion fails, no buffer overflows, no packet ID is unexpected, no credit is in excess and no time overflows. -/
theorem C78_network_never_fails (ht : t.Wired) (hb : b.Ok) (ha : Allocs VA SA t b va sa) (h : Ticks VA SA t b va sa N e s)
    (hl : Legal t b (e N)) : ∃ s', tick VA SA t b (e N) (s N) = .ok s' :=
  never_fails ht hb ha h hl

/-- C79. The packets that nodes have received are packets that nodes have sent, as a whole and unchanged, each at most
once. `P` is any property of a packet, so in particular there are never more copies of a packet received than sent. -/
theorem C79_packets_whole (ht : t.Wired) (hb : b.Ok) (ha : Allocs VA SA t b va sa) (h : Ticks VA SA t b va sa N e s)
    (P : List (Bool × Bool × Int × δ) → Bool) : leaving t b s (N + 1) P ≤ entering t b e N P :=
  leaving_le ht hb ha h P

/-- C80. Every flit a node receives is at its destination, if the routing function is a discipline under which heads may
leave the network only at their destination and all flits of a packet have the same destination. -/
theorem C80_right_destination (ht : t.Wired) (hb : b.Ok) (ha : Allocs VA SA t b va sa) (h : Ticks VA SA t b va sa N e s)
    {may : Nat → Flit δ → Prop} (hg : Guided t N e may) {dst : δ → Nat}
    (hs : ∀ l, t.Sink l → ∀ g, may l g → dst g.data = l)
    (hp : ∀ l, t.Source l → ∀ v, Packets Flit.head Flit.tail (fun f => dst f.data) (onVc (injected e l N) v))
    {l : Nat} (hl : t.Sink l) {f : Flit δ} (hf : f ∈ flitsAt s l (N + 1)) : dst f.data = l := by
  have hpre := flitsAt_prefix h (Nat.le_refl _) hl.1
  have hk := keyed ht hb ha h hp N (Nat.le_refl _) l hl.1 f.vc
  have hm : f ∈ onVc (entered s l N) f.vc := mem_onVc.2 ⟨hpre.subset hf, rfl⟩
  obtain ⟨g, hg1, hg2, hg3⟩ := packets_head hk hm
  rw [← hg3]
  rw [mem_onVc] at hg1
  exact hs l hl _ (heads_guided ht hb ha h hg N (Nat.le_refl _) l hl.1 g hg1.1 hg2)

/-! ## An example

Two routers with a node each, two virtual channels and iSLIP allocators. Port 0 of a router leads to the other router,
port 1 to its node. Links 0 and 1 come from the nodes, 2 and 3 join the routers, and 4 and 5 lead to the nodes. The data of
a flit is the link where it is to leave and a text. Node 0 sends a packet of two flits, and one of one flit to itself;
node 1 sends a packet of one flit. -/

namespace Example

def topo : Topo where
  size := 2
  links := 6
  inputs := fun _ => 2
  outputs := fun _ => 2
  inLink := fun r i => if i = 0 then 3 - r else r
  outLink := fun r o => if o = 0 then 2 + r else 4 + r
  flitDelay := fun _ => 1
  creditDelay := fun _ => 1

def cfg : Cfg := ⟨0, 0, ⟨2, -1, 2, false⟩, -1, 1, 1, 1, 1, 1⟩

abbrev Data : Type := Nat × String

def a0 : Flit Data := ⟨1, true, false, 7, 0, 5, "a0"⟩
def a1 : Flit Data := ⟨1, false, true, 7, 0, 5, "a1"⟩
def b0 : Flit Data := ⟨0, true, true, 8, 0, 4, "b0"⟩
def c0 : Flit Data := ⟨0, true, true, 9, 0, 4, "c0"⟩

def env (n : Nat) : Env Data Unit Unit where
  now := 1000 * n
  inject := fun l =>
    if n = 0 ∧ l = 0 then some a0 else if n = 1 ∧ l = 0 then some c0 else if n = 2 ∧ l = 0 then some a1
    else if n = 0 ∧ l = 1 then some b0 else none
  credit := fun l => if n = 8 ∧ l = 4 then some [0] else if n = 14 ∧ l = 5 then some [0] else none
  rf := fun r _ f => if f.data.1 = 4 + r then [⟨1, 0, 1, 0⟩] else [⟨0, 1, 1, 0⟩]
  rva := fun _ => ()
  rsa := fun _ => ()

def st : Nat → S Data Islip Islip
  | 0 => .init (fun _ => Islip.init 4 4 1) (fun _ => Islip.init 2 2 1)
  | n + 1 => match tick islip islip topo cfg (env n) (st n) with
    | .ok y => y
    | .error _ => st n

/-- The packets arrive: first the one that only passes router 0, then those that pass both routers. -/
theorem arrive : (flitsAt st 4 17, flitsAt st 5 17) =
    ([⟨0, true, true, 9, 1, 4, "c0"⟩, ⟨0, true, true, 8, 2, 4, "b0"⟩],
     [⟨0, true, false, 7, 2, 5, "a0"⟩, ⟨0, false, true, 7, 2, 5, "a1"⟩]) := by decide +kernel

theorem wired : topo.Wired where
  outLt := by decide
  inLt := by decide
  outInj := by
    intro r hr o ho r' hr' o' ho' h
    simp only [topo] at *
    split at h <;> split at h <;> omega
  inInj := by
    intro r hr o ho r' hr' o' ho' h
    simp only [topo] at *
    split at h <;> split at h <;> omega

theorem cfg_ok : cfg.Ok :=
  ⟨⟨by decide, by decide, by decide⟩, rfl, .inl rfl, rfl, rfl, rfl, rfl⟩

theorem allocs : Allocs islip islip topo cfg (fun _ => Islip.init 4 4 1) (fun _ => Islip.init 2 2 1) where
  va := fun _ _ => Alloc.C44_islip 4 4 1
  sa := fun _ _ => Alloc.C44_islip 2 2 1

theorem legal (n : Nat) (hn : n ≤ 16) : Legal topo cfg (env n) where
  time := by simp only [env]; omega
  fits := by
    intro l _
    simp only [env, topo, Channel.intMax]
    omega
  offers := by
    intro r hr i f p hp
    simp only [env] at hp
    split at hp
    · rw [List.mem_singleton.1 hp]; exact ⟨Nat.lt_of_lt_of_le (by decide) (Nat.le_refl 2), by decide, by decide⟩
    · rw [List.mem_singleton.1 hp]; exact ⟨Nat.lt_of_lt_of_le (by decide) (Nat.le_refl 2), by decide, by decide⟩
  once := by
    intro r hr i f
    simp only [env]
    split <;> decide

/-- What is to be looked at for `Nodes`. -/
theorem nodes_of {n : Nat} (h1 : ∀ l < t.links, t.Source l → (∀ f ∈ injected e l n, f.vc < b.vcs) ∧
      ∀ v < b.vcs, Packets Flit.head Flit.tail Flit.pid (onVc (injected e l n) v) ∧
        ((onVc (injected e l n) v).length : Int) ≤ b.buf.perVc + (creditsAt s l (n + 1)).flatten.count v)
    (h2 : ∀ l < t.links, t.Sink l → (∀ c ∈ credited e l n, c.Nodup ∧ ∀ v ∈ c, v < b.vcs) ∧
      ∀ v < b.vcs, (credited e l n).flatten.count v ≤ (onVc (flitsAt s l (n + 1)) v).length)
    (h3 : 0 ≤ b.buf.perVc) : Nodes t b e s n := by
  have hv : ∀ l, t.Source l → ∀ v, ¬ v < b.vcs → onVc (injected e l n) v = [] := by
    intro l hl v hv
    rw [onVc, List.filter_eq_nil_iff]
    intro f hf
    have := (h1 l hl.1 hl).1 f hf
    simp only [decide_eq_true_eq]
    omega
  refine ⟨fun l hl => (h1 l hl.1 hl).1, fun l hl v => ?_, fun l hl v => ?_, fun l hl => (h2 l hl.1 hl).1, fun l hl v => ?_⟩
  · by_cases hv' : v < b.vcs
    · exact ((h1 l hl.1 hl).2 v hv').1
    · rw [hv l hl v hv']; exact packets_nil
  · by_cases hv' : v < b.vcs
    · exact ((h1 l hl.1 hl).2 v hv').2
    · rw [hv l hl v hv']; simp only [List.length_nil]; omega
  · by_cases hv' : v < b.vcs
    · exact (h2 l hl.1 hl).2 v hv'
    · rw [List.count_eq_zero_of_not_mem]
      · exact Nat.zero_le _
      · intro hm
        obtain ⟨c, hc, hvc⟩ := List.mem_flatten.1 hm
        exact hv' (((h2 l hl.1 hl).1 c hc).2 v hvc)

instance {α κ : Type} [DecidableEq κ] (head tail : α → Bool) (key : α → κ) (l : List α) :
    Decidable (Packets head tail key l) := by
  unfold Packets Next; infer_instance

/-- The run meets the hypotheses of C78 to C80. -/
theorem ticks : Ticks islip islip topo cfg (fun _ => Islip.init 4 4 1) (fun _ => Islip.init 2 2 1) 16 env st where
  start := rfl
  legal := fun n hn => legal n (by omega)
  nodes := by
    have h1 : ∀ n ∈ List.range 17, ∀ l < topo.links, topo.Source l → (∀ f ∈ injected env l n, f.vc < cfg.vcs) ∧
        ∀ v < cfg.vcs, Packets Flit.head Flit.tail Flit.pid (onVc (injected env l n) v) ∧
        ((onVc (injected env l n) v).length : Int) ≤ cfg.buf.perVc + (creditsAt st l (n + 1)).flatten.count v := by
      decide +kernel
    have h2 : ∀ n ∈ List.range 17, ∀ l < topo.links, topo.Sink l →
        (∀ c ∈ credited env l n, c.Nodup ∧ ∀ v ∈ c, v < cfg.vcs) ∧
        ∀ v < cfg.vcs, (credited env l n).flatten.count v ≤ (onVc (flitsAt st l (n + 1)) v).length := by
      decide +kernel
    intro n hn
    have hn : n ∈ List.range 17 := by simp; omega
    exact nodes_of (h1 n hn) (h2 n hn) (by decide)
  step := by
    have h1 : ∀ n ∈ List.range 16, (tick islip islip topo cfg (env n) (st n)).isOk = true := by decide +kernel
    intro n hn
    have := h1 n (by simp; omega)
    simp only [st]
    generalize tick islip islip topo cfg (env n) (st n) = x at this
    cases x with
    | ok y => rfl
    | error y => cases this

/-- C78, C79 for the packet of two flits: it leaves once. -/
example : ∃ s', tick islip islip topo cfg (env 16) (st 16) = .ok s' :=
  C78_network_never_fails wired cfg_ok allocs ticks (legal 16 (by omega))

example : leaving topo cfg st 17 (· = [body a0, body a1]) ≤ 1 := by
  refine Nat.le_trans (C79_packets_whole wired cfg_ok allocs ticks _) ?_
  decide +kernel

example : leaving topo cfg st 17 (· = [body a0, body a1]) = 1 := by decide +kernel

/-- A head for node 0 may be anywhere but on the way to node 1, and the other way round. -/
def may (l : Nat) (f : Flit Data) : Prop :=
  f.data.1 = 4 ∧ (l = 0 ∨ l = 1 ∨ l = 3 ∨ l = 4) ∨ f.data.1 = 5 ∧ (l = 0 ∨ l = 1 ∨ l = 2 ∨ l = 5)

theorem guided : Guided topo 16 env may where
  enter := by
    have : ∀ l < topo.links, topo.Source l → ∀ f ∈ injected env l 16, (l = 0 ∨ l = 1) ∧ (f.data.1 = 4 ∨ f.data.1 = 5) := by
      decide +kernel
    intro l hl f hf _
    have := this l hl.1 hl f hf
    simp only [may]
    omega
  hop := by
    intro n _ r hr i hi f _ hm p hp u _ _
    simp only [topo, env, may] at *
    split at hp
    · rw [List.mem_singleton.1 hp]
      simp
      omega
    · rw [List.mem_singleton.1 hp]
      simp
      split at hm <;> omega

example : ∀ f ∈ flitsAt st 5 17, f.data.1 = 5 := by
  intro f hf
  refine C80_right_destination wired cfg_ok allocs ticks guided (dst := Prod.fst) ?_ ?_ (l := 5) (by decide) hf
  · have : ∀ l < topo.links, topo.Sink l → l = 4 ∨ l = 5 := by decide
    intro l hl g hm
    have := this l hl.1 hl
    simp only [may] at hm
    omega
  · intro l hl v
    have h1 : ∀ l < topo.links, topo.Source l → ∀ v < cfg.vcs,
        Packets Flit.head Flit.tail (fun f => f.data.1) (onVc (injected env l 16) v) := by decide +kernel
    by_cases hv : v < cfg.vcs
    · exact h1 l hl.1 hl v hv
    · rw [onVc, List.filter_eq_nil_iff.2]
      · exact packets_nil
      · intro f hf
        have := (ticks.nodes 16 (by omega)).vcs l hl f hf
        simp only [decide_eq_true_eq]
        omega

end Example

end RadSim.Net
