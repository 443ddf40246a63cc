import Verif.Spec.NetworkOrder
import Verif.Lemmas.NetworkPackets

/-! # A network keeps the order of packets with one way -/

namespace RadSim.Net

open Router (R In Out Flit Hop Cfg upto received sent granted returned sentOn Pass passedFrom passedTo Explains)
open Alloc (Holds Valid asked)

variable {δ σ τ ρ ρ' κ : Type}

theorem packets_pair {α β γ : Type} {head tail : α → Bool} {k₁ : α → β} {k₂ : α → γ} {l : List α}
    (h₁ : Packets head tail k₁ l) (h₂ : Packets head tail k₂ l) : Packets head tail (fun x => (k₁ x, k₂ x)) l := by
  induction l using List.reverseRecOn with
  | nil => exact packets_nil
  | append_singleton l x ih =>
    rw [packets_snoc] at h₁ h₂ ⊢
    refine ⟨ih h₁.1 h₂.1, ?_⟩
    rcases closed_or_open tail l with hc | ⟨a, ha, hat⟩
    · exact Fits.of_closed hc (Fits.head_of_closed hc h₁.2)
    · obtain ⟨g1, g2⟩ := Fits.head_of_open ha hat h₁.2
      obtain ⟨_, g3⟩ := Fits.head_of_open ha hat h₂.2
      have := h₁.2
      unfold Fits at this ⊢
      rw [ha] at this ⊢
      unfold Next at this ⊢
      grind

section
variable [DecidableEq κ] {key : δ → κ} {k : κ}

theorem lane_prefix {a b : List (Flit δ)} (h : a <+: b) : lane key k a <+: lane key k b := (h.filter _).map _

theorem lane_nil {l : List (Flit δ)} (h : ∀ f ∈ l, key f.data ≠ k) : lane key k l = [] := by
  unfold lane
  rw [List.filter_eq_nil_iff.2 (by simpa using h)]
  rfl

theorem lane_onVc {l : List (Flit δ)} {v : Nat} (h : ∀ f ∈ l, key f.data = k → f.vc = v) :
    lane key k (onVc l v) = lane key k l := by
  unfold lane onVc
  rw [List.filter_filter]
  congr 1
  refine List.filter_congr fun f hf => ?_
  by_cases hk : key f.data = k
  · simp [hk, h f hf hk]
  · simp [hk]

end

theorem injected_prefix {e : Nat → Env δ ρ ρ'} (l : Nat) {n m : Nat} (h : n ≤ m) : injected e l n <+: injected e l m := by
  obtain ⟨d, rfl⟩ := Nat.exists_eq_add_of_le h
  clear h
  induction d with
  | zero => exact List.prefix_refl _
  | succ d ih =>
    refine ih.trans ?_
    unfold injected
    rw [show n + (d + 1) = n + d + 1 by omega, filterMap_snoc]
    exact List.prefix_append _ _

section run
variable {VA : Alloc.Cls σ ρ} {SA : Alloc.Cls τ ρ'} {t : Topo} {b : Cfg} {va : Nat → σ} {sa : Nat → τ} {N : Nat}
  {e : Nat → Env δ ρ ρ'} {s : Nat → S δ σ τ}

/-- A flit has a head of the same packet on its virtual channel. -/
theorem head_of (ht : t.Wired) (hb : b.Ok) (ha : Allocs VA SA t b va sa) (h : Ticks VA SA t b va sa N e s)
    {may : Nat → Flit δ → Prop} (hg : Guided t N e may) {key : δ → κ}
    (hk : ∀ l, t.Source l → ∀ v, Packets Flit.head Flit.tail (fun f => key f.data) (onVc (injected e l N) v))
    {n : Nat} (hn : n ≤ N) {l : Nat} (hl : l < t.links) {f : Flit δ} (hf : f ∈ entered s l n) :
    ∃ g ∈ entered s l n, g.head = true ∧ g.vc = f.vc ∧ key g.data = key f.data ∧ may l g := by
  obtain ⟨g, hg1, hg2, hg3⟩ := packets_head (keyed ht hb ha h hk n hn l hl f.vc) (mem_onVc.2 ⟨hf, rfl⟩)
  rw [mem_onVc] at hg1
  exact ⟨g, hg1.1, hg2, hg1.2, hg3, heads_guided ht hb ha h hg n hn l hl g hg1.1 hg2⟩

/-- The passes of a router, with their heads. -/
theorem pass_heads (ht : t.Wired) (hb : b.Ok) (ha : Allocs VA SA t b va sa) (h : Ticks VA SA t b va sa N e s)
    {may : Nat → Flit δ → Prop} (hg : Guided t N e may) {key : δ → κ}
    (hk : ∀ l, t.Source l → ∀ v, Packets Flit.head Flit.tail (fun f => key f.data) (onVc (injected e l N) v))
    {n : Nat} (hn : n ≤ N) {r : Nat} (hr : r < t.size) {L : List (Pass δ)}
    (hL : Explains (upto (insOf t e s r) n) (upto (outOf VA SA t b e s r) n) L)
    (hb' : ∀ e ∈ L, (e.i < t.inputs r ∧ e.v < b.vcs) ∧ e.o < t.outputs r ∧ e.u < b.vcs) {p : Pass δ} (hp : p ∈ L) :
    ∃ f : Flit δ, key f.data = key p.f.data ∧ f.vc = p.v ∧ may (t.inLink r p.i) f ∧
      may (t.outLink r p.o) { f with vc := p.u, hops := f.hops + 1 } := by
  obtain ⟨⟨hi, _⟩, _⟩ := hb' p hp
  have hli := ht.inLt r hr p.i hi
  have hrecv := received_eq (e := e) (s := s) (n := n) (v := p.v) hi
  have hpk : Packets Flit.head Flit.tail (fun f => key f.data) ((passedFrom L p.i p.v).map Pass.f) := by
    obtain ⟨z, hz⟩ := hL.from_input p.i p.v
    refine packets_prefix (r := z) ?_
    rw [hz, hrecv]
    obtain ⟨z, hz⟩ := ((show flitsAt s (t.inLink r p.i) n <+: flitsAt s (t.inLink r p.i) (n + 1) by
      rw [flitsAt_succ]; exact List.prefix_append _ _).trans
      (flitsAt_prefix h hn hli)).filter (fun f => decide (f.vc = p.v))
    have := keyed ht hb ha h hk n hn _ hli p.v
    unfold onVc at this ⊢
    rw [← hz] at this
    exact packets_prefix this
  have hpk' : Packets (fun e : Pass δ => e.f.head) (fun e => e.f.tail) (fun e => key e.f.data) (passedFrom L p.i p.v) := by
    refine ⟨?_, ?_⟩
    · intro a ha
      refine hpk.1 a.f ?_
      rw [List.head?_map, ha]; rfl
    · have := hpk.2
      rw [List.isChain_map] at this
      exact this
  have hmem : p ∈ passedFrom L p.i p.v := by simp [passedFrom, hp]
  obtain ⟨q, hq, hqh, hqk⟩ := packets_head (packets_pair (hL.together p.i p.v) hpk') hmem
  obtain ⟨hqL, hqi, hqv⟩ := Router.mem_from hq
  simp only [Prod.mk.injEq] at hqk
  obtain ⟨⟨hqo, hqu⟩, hqk⟩ := hqk
  have hrec : q.f ∈ received (upto (insOf t e s r) n) p.i p.v :=
    (hL.from_input p.i p.v).subset (List.mem_map.2 ⟨q, hq, rfl⟩)
  rw [hrecv, mem_onVc] at hrec
  have hent : q.f ∈ entered s (t.inLink r p.i) n := by
    refine (flitsAt_prefix h hn hli).subset ?_
    rw [flitsAt_succ]
    exact List.mem_append_left _ hrec.1
  have hm := heads_guided ht hb ha h hg n hn _ hli q.f hent hqh
  obtain ⟨x, hx, w, hw, hw1, hw2, hw3⟩ := hL.routed q hqL hqh
  obtain ⟨m, hm', rfl⟩ := Router.upto_mem.1 hx
  rw [hqi] at hw
  have := hg.hop m (by omega) r hr p.i hi q.f hqh hm w hw q.u hw2 hw3
  rw [hw1, hqo, hqu] at this
  exact ⟨q.f, hqk, hrec.2, hm, this⟩

variable [DecidableEq κ]

/-- Flits with a key are on every link in the order in which they entered the network. -/
theorem in_order (ht : t.Wired) (hb : b.Ok) (ha : Allocs VA SA t b va sa) (h : Ticks VA SA t b va sa N e s)
    {may : Nat → Flit δ → Prop} (hg : Guided t N e may) {key : δ → κ}
    (hk : ∀ l, t.Source l → ∀ v, Packets Flit.head Flit.tail (fun f => key f.data) (onVc (injected e l N) v))
    {k : κ} {l₀ : Nat} (hlane : Lanes t N e may key k l₀) :
    ∀ n ≤ N, ∀ l < t.links, lane key k (entered s l n) <+: lane key k (injected e l₀ n) := by
  intro n
  induction n with
  | zero =>
    intro _ l _
    have : entered s l 0 = [] := by simp [entered, upto, h.start, S.init]
    rw [this]
    exact List.nil_prefix
  | succ n ih =>
    intro hn l hl
    cases hd : t.driver l with
    | none =>
      have hs := (driver_none hl).1 hd
      rw [h.entered_source hn hs]
      by_cases hl0 : l = l₀
      · rw [hl0]
      · rw [lane_nil fun f hf => hlane.home l hs hl0 f ((injected_prefix l hn).subset hf)]
        exact List.nil_prefix
    | some x =>
      obtain ⟨r, o⟩ := x
      obtain ⟨h1, h2, rfl⟩ := driver_some hd
      rw [h.entered_driven hn hl hd]
      obtain ⟨L, hL, hr⟩ := router_log ht hb ha h hn h1
      have heads := fun p (hp : p ∈ L) => pass_heads ht hb ha h hg hk hn h1 hL hr hp
      by_cases hex : ∃ p ∈ L, key p.f.data = k ∧ p.o = o
      swap
      · rw [lane_nil]
        · exact List.nil_prefix
        · intro f hf hfk
          obtain ⟨p, hp, rfl⟩ := List.mem_map.1 ((hL.to_output o).subset hf)
          simp only [List.mem_filter, decide_eq_true_eq] at hp
          exact hex ⟨p, hp.1, hfk, hp.2⟩
      · obtain ⟨p, hp, hpk, hpo⟩ := hex
        obtain ⟨f, hfk, hfv, hfi, hfo⟩ := heads p hp
        have uniq : ∀ q ∈ L, key q.f.data = k → q.i = p.i ∧ q.v = p.v ∧ q.o = o := by
          intro q hq hqk
          obtain ⟨g, hgk, hgv, hgi, hgo⟩ := heads q hq
          obtain ⟨a1, a2⟩ := hlane.ins r h1 q.i (hr q hq).1.1 p.i (hr p hp).1.1 g f (hgk.trans hqk) (hfk.trans hpk) hgi hfi
          obtain ⟨a3, _⟩ := hlane.outs r h1 q.o (hr q hq).2.1 p.o (hr p hp).2.1
            { g with vc := q.u, hops := g.hops + 1 } { f with vc := p.u, hops := f.hops + 1 }
            (hgk.trans hqk) (hfk.trans hpk) hgo hfo
          exact ⟨a1, by rw [← hgv, a2, hfv], a3.trans hpo⟩
        have hi := (hr p hp).1.1
        have hli := ht.inLt r h1 p.i hi
        have hin : ∀ g ∈ flitsAt s (t.inLink r p.i) (n + 1), key g.data = k → g.vc = p.v := by
          intro g hg' hgk
          obtain ⟨w, _, _, hw1, hw2, hw3⟩ := head_of ht hb ha h hg hk (show n ≤ N by omega) hli
            ((flitsAt_prefix h (show n ≤ N by omega) hli).subset hg')
          have := (hlane.ins r h1 p.i hi p.i hi w f (hw2.trans hgk) (hfk.trans hpk) hw3 hfi).2
          rw [← hw1, this, hfv]
        have e1 : lane key k ((L.filter fun q => q.o = o).map Pass.flit) =
            lane key k ((passedFrom L p.i p.v).map Pass.f) := by
          unfold lane passedFrom
          rw [List.filter_map, List.filter_filter, List.filter_map, List.filter_filter, List.map_map, List.map_map]
          show List.map (fun q : Pass δ => body q.f) _ = List.map (fun q : Pass δ => body q.f) _
          congr 1
          refine List.filter_congr fun q hq => ?_
          by_cases hqk : key q.f.data = k
          · obtain ⟨a1, a2, a3⟩ := uniq q hq hqk
            simp [Pass.flit, a1, a2, a3, hqk]
          · simp [Pass.flit, hqk]
        have s1 := lane_prefix (key := key) (k := k) (hL.to_output o)
        rw [e1] at s1
        have s2 := lane_prefix (key := key) (k := k) (hL.from_input p.i p.v)
        rw [received_eq hi, lane_onVc hin] at s2
        exact s1.trans (s2.trans ((lane_prefix (flitsAt_prefix h (by omega) hli)).trans
          ((ih (by omega) _ hli).trans (lane_prefix (injected_prefix l₀ (Nat.le_succ n))))))

end run
end RadSim.Net
