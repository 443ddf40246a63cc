import Verif.Lemmas.NetworkLive
import Verif.Lemmas.NetworkRest
import Verif.Props.Network

/-! # Networks deliver everything -/

namespace RadSim.Net

open Router (Flit Hop Cfg)
open Alloc (Islip islip)

variable {δ σ τ ρ ρ' : Type} {VA : Alloc.Cls σ ρ} {SA : Alloc.Cls τ ρ'} {t : Topo} {b : Cfg} {va : Nat → σ} {sa : Nat → τ}
  {e : Nat → Env δ ρ ρ'} {s : Nat → S δ σ τ} {N : Nat}

/-- C82. A network whose routing goes down in a rank of the virtual channels delivers every packet: once the nodes send
no more flits and return their credits within `D` ticks, every packet that was sent has been received after a number of
ticks that is known from the configuration and the number of flits sent. -/
theorem C82_network_drains (ht : t.Wired) (hb : b.Ok) (ho : b.outSize ≠ 0) (ha : Allocs VA SA t b va sa)
    (hgr : Grants VA SA t b va sa) (h : Ticks VA SA t b va sa N e s) {may : Nat → Flit δ → Prop} (hg : Guided t N e may)
    {rank : Nat → Nat → Nat} {R : Nat} (hk : Ranked t b N e may rank R) {n₀ D K : Nat} (hd : Drains t b N n₀ D K e s)
    (hN : n₀ + (R * flitsIn t e n₀ + 1) * (3 * K + D + 2 * slots t b + 6) ≤ N) (P : List (Bool × Bool × Int × δ) → Bool) :
    leaving t b s (N + 1) P = entering t b e N P :=
  drained ht hb ho ha hgr h hg hk hd hN P

/-! ## An example

The network of the example of C78 with nodes that return all credits. -/

namespace LiveExample

open Example (topo cfg Data a0 a1 b0 c0 wired cfg_ok allocs nodes_of may)

def env (n : Nat) : Env Data Unit Unit where
  now := 1000 * n
  inject := (Example.env n).inject
  credit := fun l => if (n = 17 ∨ n = 18) ∧ (l = 4 ∨ l = 5) then some [0] else none
  rf := (Example.env n).rf
  rva := fun _ => ()
  rsa := fun _ => ()

def st : Nat → S Data Islip Islip
  | 0 => .init (fun _ => Islip.init 4 4 1) (fun _ => Islip.init 2 2 1)
  | n + 1 => match tick islip islip topo cfg (env n) (st n) with
    | .ok y => y
    | .error _ => st n

theorem legal (n : Nat) (hn : n ≤ 600) : Legal topo cfg (env n) where
  time := by simp only [env]; omega
  fits := by
    intro l _
    simp only [env, topo, Channel.intMax]
    omega
  offers := (Example.legal 0 (by omega)).offers
  once := (Example.legal 0 (by omega)).once

instance (s : S Data Islip Islip) : Decidable (Rests topo s) := inferInstanceAs (Decidable (_ ∧ _))

theorem rests : Rests topo (st 24) := by decide +kernel

theorem arrive : (flitsAt st 4 25, flitsAt st 5 25) =
    ([⟨0, true, true, 9, 1, 4, "c0"⟩, ⟨0, true, true, 8, 2, 4, "b0"⟩],
     [⟨0, true, false, 7, 2, 5, "a0"⟩, ⟨0, false, true, 7, 2, 5, "a1"⟩]) := by decide +kernel

theorem silent (n : Nat) (hn : 24 ≤ n) : Silent topo (env n) := by
  constructor
  · intro l _
    simp only [env, Example.env]
    repeat' rw [if_neg (by omega)]
  · intro l _
    simp only [env]
    rw [if_neg (by omega)]

theorem step (n : Nat) (s') (h : tick islip islip topo cfg (env n) (st n) = .ok s') : st (n + 1) = s' := by
  simp only [st]
  rw [h]

/-- The first ticks, until the network is at rest. -/
theorem ticks_first :
    Ticks islip islip topo cfg (fun _ => Islip.init 4 4 1) (fun _ => Islip.init 2 2 1) 24 env st where
  start := rfl
  legal := fun n hn => legal n (by omega)
  nodes := by
    have h1 : ∀ n ∈ List.range 25, ∀ l < topo.links, topo.Source l → (∀ f ∈ injected env l n, f.vc < cfg.vcs) ∧
        ∀ v < cfg.vcs, Packets Flit.head Flit.tail Flit.pid (onVc (injected env l n) v) ∧
        ((onVc (injected env l n) v).length : Int) ≤ cfg.buf.perVc + (creditsAt st l (n + 1)).flatten.count v := by
      decide +kernel
    have h2 : ∀ n ∈ List.range 25, ∀ l < topo.links, topo.Sink l →
        (∀ c ∈ credited env l n, c.Nodup ∧ ∀ v ∈ c, v < cfg.vcs) ∧
        ∀ v < cfg.vcs, (credited env l n).flatten.count v ≤ (onVc (flitsAt st l (n + 1)) v).length := by
      decide +kernel
    intro n hn
    have hn : n ∈ List.range 25 := by simp; omega
    exact nodes_of (h1 n hn) (h2 n hn) (by decide)
  step := by
    have h1 : ∀ n ∈ List.range 24, (tick islip islip topo cfg (env n) (st n)).isOk = true := by decide +kernel
    intro n hn
    have := h1 n (by simp; omega)
    cases hx : tick islip islip topo cfg (env n) (st n) with
    | ok y => rw [step n y hx]
    | error y => rw [hx] at this; cases this

theorem rest (n : Nat) (hn : 24 ≤ n) : Rests topo (st n) :=
  (rest_on (VA := islip) (SA := islip) (b := cfg) wired rests silent (fun n _ => step n) n hn).1

/-- A run that is long enough for C82. -/
theorem ticks : Ticks islip islip topo cfg (fun _ => Islip.init 4 4 1) (fun _ => Islip.init 2 2 1) 500 env st :=
  ticks_rest wired ticks_first rests silent (fun n _ => step n) fun n hn => legal n (by omega)

theorem grants : Grants islip islip topo cfg (fun _ => Islip.init 4 4 1) (fun _ => Islip.init 2 2 1) where
  va := fun _ _ => (Alloc.C68_islip 4 4 1 (by decide)).mono fun _ _ h => h.1
  sa := fun _ _ => (Alloc.C68_islip 2 2 1 (by decide)).mono fun _ _ h => h.1

theorem guided : Guided topo 500 env may where
  enter := by
    have : ∀ l < topo.links, topo.Source l → ∀ f ∈ injected env l 24, (l = 0 ∨ l = 1) ∧ (f.data.1 = 4 ∨ f.data.1 = 5) := by
      decide +kernel
    intro l hl f hf _
    rw [injected_rest silent (by decide) hl] at hf
    have := this l hl.1 hl f hf
    simp only [may]
    omega
  hop := fun _ _ => Example.guided.hop 0 (by decide)

/-- Links from nodes come first, then those between the routers, then those to nodes. -/
def rank (l _v : Nat) : Nat := if l ≤ 1 then 2 else if l ≤ 3 then 1 else 0

theorem ranked : Ranked topo cfg 500 env may rank 2 where
  le := by
    intro l _ v _
    unfold rank
    repeat' split
    all_goals omega
  down := by
    intro n _ r hr i hi f _ hm hv
    simp only [topo, env, Example.env, may, rank] at *
    split
    · refine ⟨by simp, fun p hp u _ _ => ?_⟩
      rw [List.mem_singleton.1 hp]
      simp
      repeat' split
      all_goals omega
    · refine ⟨by simp, fun p hp u _ _ => ?_⟩
      rw [List.mem_singleton.1 hp]
      simp
      split at hm <;> simp [*] <;> (repeat' split) <;> omega

theorem drains : Drains topo cfg 500 3 20 1 env st where
  quiet := by
    intro n h1 _ l _
    simp only [env, Example.env]
    repeat' rw [if_neg (by omega)]
  whole := by
    have : ∀ l < topo.links, topo.Source l → ∀ v < cfg.vcs, ∀ f ∈ (onVc (injected env l 3) v).getLast?, f.tail = true := by
      decide +kernel
    intro l hl v
    by_cases hv : v < cfg.vcs
    · exact this l hl.1 hl v hv
    · have hz : onVc (injected env l 3) v = [] := by
        rw [onVc, List.filter_eq_nil_iff]
        intro f hf
        have := (ticks.nodes 3 (by decide)).vcs l hl f hf
        simp only [decide_eq_true_eq]
        omega
      rw [hz]
      simp
  prompt := by
    have h1 : ∀ n ∈ List.range 24, 3 ≤ n → ∀ l < topo.links, topo.Sink l → ∀ v < cfg.vcs,
        (onVc (flitsAt st l (n + 1)) v).length ≤ (credited env l (n + 20)).flatten.count v := by decide +kernel
    have h2 : ∀ l < topo.links, topo.Sink l → ∀ v < cfg.vcs,
        (onVc (flitsAt st l 25) v).length ≤ (credited env l 24).flatten.count v := by decide +kernel
    have h3 : ∀ l < topo.links, topo.Sink l → ∀ f ∈ flitsAt st l 25, f.vc < cfg.vcs := by decide +kernel
    have h4 : ∀ n ∈ List.range 24, ∀ l < topo.links, topo.Sink l → ∀ f ∈ flitsAt st l (n + 1), f.vc < cfg.vcs := by
      decide +kernel
    have hz : ∀ {l : List (Flit Data)} {v : Nat}, (∀ f ∈ l, f.vc < cfg.vcs) → ¬ v < cfg.vcs → onVc l v = [] := by
      intro l v hl hv
      rw [onVc, List.filter_eq_nil_iff]
      intro f hf
      have := hl f hf
      simp only [decide_eq_true_eq]
      omega
    intro n hn hN l hl v
    by_cases hn' : n < 24
    · by_cases hv : v < cfg.vcs
      · exact h1 n (by simp; omega) hn l hl.1 hl v hv
      · rw [hz (h4 n (by simp; omega) l hl.1 hl) hv]
        exact Nat.zero_le _
    · rw [flitsAt_rest rest (by omega) hl.1, credited_rest silent (by omega) hl]
      by_cases hv : v < cfg.vcs
      · exact h2 l hl.1 hl v hv
      · rw [hz (h3 l hl.1 hl) hv]
        exact Nat.zero_le _
  credit := by
    intro n _ l _
    simp only [env]
    split <;> simp
  time := by
    intro m n h _
    simp only [env, cfg, topo]
    exact ⟨by omega, fun l _ => by omega⟩

/-- All three packets arrive, here the one with two flits. -/
example : leaving topo cfg st 501 (· = [body a0, body a1]) = 1 := by
  have hN : 3 + (2 * flitsIn topo env 3 + 1) * (3 * 1 + 20 + 2 * slots topo cfg + 6) ≤ 500 := by decide +kernel
  rw [C82_network_drains wired cfg_ok (by decide) allocs grants ticks guided ranked drains hN]
  have : entering topo cfg env 24 (· = [body a0, body a1]) = 1 := by decide +kernel
  rw [← this]
  exact Finset.sum_congr rfl fun l hl => Finset.sum_congr rfl fun v _ => by
    rw [injected_rest silent (by decide) (Finset.mem_filter.1 hl).2]

end LiveExample

end RadSim.Net
