import Verif.Lemmas.AximmTake

/-! # `aximm_hello_world` comes to an end -/

namespace RadSim.MmNoc

open Net
open Noc (st nets envs)
open Hello (Void Rests left)

variable {σ τ ρ ρ' : Type} {VA : Alloc.Cls σ ρ} {SA : Alloc.Cls τ ρ'} {c : Cfg} {va : Nat → σ} {sa : Nat → τ} {i : Nat → In ρ ρ'}
  {rng : Nat → Nat × Nat} {r : Nat → Nat} {n : Nat}

/-- The period has an edge of the adapter clock, of the node clock. -/
def adapterIn (k : Kind) (j : NodeIn) : Bool := (clocksOf k j).any fun x => x.2
def nodeIn' (k : Kind) (j : NodeIn) : Bool := (clocksOf k j).any fun x => x.1

theorem req_clocks (j : NodeIn) (accept : Bool) (f : Bool × Bool → Bool) (h : f (false, false) = false) :
    ((reqEvents j accept).any fun e => f e.clocks) = (clocksOf .slave j).any f := by
  unfold reqEvents clocksOf
  rw [List.any_append, List.any_cons]
  show (_ || (f (false, false) || _)) = _
  rw [h, List.any_map, List.any_map, Bool.false_or]
  simp only [List.map_append, List.any_append, List.any_map]
  rfl

theorem rsp_clocks (j : NodeIn) (accept : Bool) (f : Bool × Bool → Bool) (h : f (false, false) = false) :
    ((rspEvents j accept).any fun e => f e.clocks) = (clocksOf .master j).any f := by
  unfold rspEvents clocksOf
  rw [List.any_append, List.any_cons]
  show (_ || (f (false, false) || _)) = _
  rw [h, List.any_map, List.any_map, Bool.false_or]
  simp only [List.map_append, List.any_append, List.any_map]
  rfl

/-- A period in which nothing is handed over. -/
theorem step_rests {b : BufCfg} {nc : NodeCfg} {j : NodeIn} {l : List Nat} {arrive : Option BsFlit} {s s' : Node} {out : List BsFlit}
    (h : nodeStep b nc j l arrive s = .ok (s', out)) (hk : nc.kind ≠ .none) (h1 : s'.reqs = s.reqs) (h2 : s'.rsps = s.rsps) :
    (Void (pktOf nc.kind s) → Rests nc.mm (adapterIn nc.kind j) (pktOf nc.kind s) (pktOf nc.kind s')) ∧
    ((pktOf nc.kind s).reg = none ∨ nodeIn' nc.kind j = true → (pktOf nc.kind s').reg = none) := by
  cases hkind : nc.kind with
  | none => exact absurd hkind hk
  | slave =>
    obtain ⟨accept, buf, -, e1, e2, -, -⟩ := Hello.slave_period h hkind
    have hh : (reqRun nc.mm s.req (reqEvents j accept)).2.1 = [] := by
      rw [h1] at e2; simpa using e2.symm
    show (Void s.req.k → Rests nc.mm (adapterIn .slave j) s.req.k s'.req.k) ∧ (s.req.k.reg = none ∨ nodeIn' .slave j = true → s'.req.k.reg = none)
    rw [e1]
    unfold adapterIn nodeIn'
    refine ⟨fun hv => ?_, fun hr => Hello.req_reg_run _ hh (hr.imp id fun hr => ?_)⟩
    · rw [← req_clocks j accept (fun x => x.2) rfl]; exact Hello.req_rest_run _ hv hh
    · rw [← req_clocks j accept (fun x => x.1) rfl] at hr
      simpa using hr
  | master =>
    obtain ⟨accept, buf, -, e1, e2, -, -⟩ := Hello.master_period h hkind
    have hh : (rspRun nc.mm s.rsp (rspEvents j accept)).2.1 = [] := by
      rw [h2] at e2; simpa using e2.symm
    show (Void s.rsp.k → Rests nc.mm (adapterIn .master j) s.rsp.k s'.rsp.k) ∧ (s.rsp.k.reg = none ∨ nodeIn' .master j = true → s'.rsp.k.reg = none)
    rw [e1]
    unfold adapterIn nodeIn'
    refine ⟨fun hv => ?_, fun hr => Hello.rsp_reg_run _ hh (hr.imp id fun hr => ?_)⟩
    · rw [← rsp_clocks j accept (fun x => x.2) rfl]; exact Hello.rsp_rest_run _ hv hh
    · rw [← rsp_clocks j accept (fun x => x.1) rfl] at hr
      simpa using hr

/-- There is room for a packet in the FIFO of the adapter, and the node clock does not stop. -/
structure Opens (c : Cfg) (N n₀ J : Nat) (i : Nat → In ρ ρ') : Prop where
  room : ∀ u < c.m.nodes, (c.nc u).kind ≠ .none → (c.nc u).mm.maxFlits ≤ (c.nc u).mm.depth
  nodes : ∀ k, n₀ ≤ k → k + J ≤ N → ∀ u < c.m.nodes, (c.nc u).kind ≠ .none → ∃ k', k ≤ k' ∧ k' < k + J ∧
    nodeIn' (c.nc u).kind ((i k').ad u) = true

/-- The source side is ready to take a beat. -/
structure Idle (k : Pkt) : Prop where
  void : Void k
  cycle : k.cycle = 0
  full : k.full = false

namespace Calm

variable {N n₀ J K a T : Nat} (w : Calm VA SA c va sa i rng r N n₀ J K a T)
include w

theorem shrink {T' : Nat} (h : T' ≤ T) : Calm VA SA c va sa i rng r N n₀ J K a T' where
  set := w.set
  allocs := w.allocs
  grants := w.grants
  short := w.short
  runs := w.runs
  inv := w.inv
  fair := w.fair
  start := w.start
  stop := by have := w.stop; omega
  still := by
    have hN := w.stop
    have k1 := progress_mono w.set w.inv (show a ≤ a + T' by omega) (by omega)
    have k2 := progress_mono w.set w.inv (show a + T' ≤ a + T by omega) (by omega)
    have := w.still
    omega

/-- The time until the NoC has come to rest. -/
abbrev rest (c : Cfg) (J K : Nat) : Nat := 3 * K + 2 * J + 2 * slots (mesh c.m) c.b + 7

/-- Everything has been shown, and the source sides have nothing to send. -/
theorem dry (hT : rest c J K ≤ T) (ho : c.b.outSize ≠ 0) :
    ∃ n, a + J ≤ n ∧ n ≤ a + rest c J K ∧ (∀ u < c.m.nodes, ∀ k ∈ shows (c.nc u).kind,
      (shownAt (st VA SA c.noc va sa i n) u k).length =
        ∑ x ∈ Finset.range c.m.nodes, (givenFor c (st VA SA c.noc va sa i n) x u k).length) ∧
      ∀ u < c.m.nodes, (c.nc u).kind ≠ .none → waits (pktOf (c.nc u).kind (node VA SA c va sa i n u)) = [] := by
  have w0 := w.shrink hT
  clear w hT
  have hN := w0.stop
  have hrest : rest c J K = 3 * K + 2 * J + 2 * slots (mesh c.m) c.b + 7 := rfl
  have w1 := w0.shift (d := J) (by unfold rest; omega)
  obtain ⟨n, z⟩ := w1.stuck (T' := rest c J K - J) (by omega) (Nat.le_refl _) (by omega) ho
  have h1 := z.lo
  have h2 := z.hi
  have hcut : Cut VA SA c va sa i n := fun u hu hk => w0.spent (by omega) (by omega) hu hk
  refine ⟨n, by omega, by omega, fun u hu k hk => ?_, fun u hu hk => ?_⟩
  · rw [← w0.shownFor (by omega) (n := n) (by omega) (by omega) hu hk]
    have e2 := z.delivered (w1.ended (by omega) (Nat.le_refl _) (by omega) h2 hcut) fun q => isFor k q && q.any fun x => x.2.2.2.dest = u
    rw [leaving_at w0.set.k (fun x hx f hf =>
      ((w0.inv n (by omega)).read w0.set.noc w0.allocs (laws w0.set w0.runs) hx hf).1) hu, entering_at] at e2
    rw [e2]
    unfold sentTo
    refine Finset.sum_congr rfl fun x hx => ?_
    have hx := Finset.mem_range.1 hx
    exact w0.sentFor (by omega) hx (w1.written (by omega) (Nat.le_refl _) z hcut hx) u k
  · have e := w0.parts (n := n) (by omega) hu hk (hcut u hu hk)
    rw [← w1.written (by omega) (Nat.le_refl _) z hcut hu] at e
    simpa using e.symm

/-- The source sides have nothing to send from then on. -/
theorem dry_on (hT : rest c J K ≤ T) (ho : c.b.outSize ≠ 0) {m : Nat} (h1 : a + rest c J K ≤ m) (h2 : m ≤ a + T) {u : Nat}
    (hu : u < c.m.nodes) (hk : (c.nc u).kind ≠ .none) : waits (pktOf (c.nc u).kind (node VA SA c va sa i m u)) = [] := by
  have hN := w.stop
  have hrest : rest c J K = 3 * K + 2 * J + 2 * slots (mesh c.m) c.b + 7 := rfl
  obtain ⟨n, k1, k2, -, k3⟩ := w.dry hT ho
  have e1 := w.parts (n := n) (by omega) hu hk (w.spent (by omega) (by omega) hu hk)
  have e2 := w.parts (n := m) (by omega) hu hk (w.spent (by omega) (by omega) hu hk)
  obtain ⟨s1, -, s2, s3⟩ := (w.same (n := n) (m := m) (by omega) (by omega) (by omega)).2 u hu
  have e3 : pks c u (node VA SA c va sa i m u) = pks c u (node VA SA c va sa i n u) := by
    unfold pks txns
    rw [s2, s3]
  rw [e3, e1, s1, k3 u hu hk] at e2
  simpa using e2.symm

/-- Everything has been shown from then on. -/
theorem shown_on (hT : rest c J K ≤ T) (ho : c.b.outSize ≠ 0) {m : Nat} (h1 : a + rest c J K ≤ m) (h2 : m ≤ a + T) {u : Nat}
    (hu : u < c.m.nodes) {k : MmType} (hk : k ∈ shows (c.nc u).kind) :
    ∑ x ∈ Finset.range c.m.nodes, (givenFor c (st VA SA c.noc va sa i m) x u k).length ≤ (shownAt (st VA SA c.noc va sa i m) u k).length := by
  have hN := w.stop
  obtain ⟨n, k1, k2, k3, -⟩ := w.dry hT ho
  have e1 : ∑ w ∈ Finset.range c.m.nodes, (givenFor c (st VA SA c.noc va sa i m) w u k).length =
      ∑ w ∈ Finset.range c.m.nodes, (givenFor c (st VA SA c.noc va sa i n) w u k).length := by
    refine Finset.sum_congr rfl fun x hx => ?_
    obtain ⟨-, -, s2, s3⟩ := (w.same (n := n) (m := m) (by omega) (by omega) (by omega)).2 x (Finset.mem_range.1 hx)
    unfold givenFor given
    rw [s2, s3]
  rw [e1, ← k3 u hu k hk]
  have := (onward w.set w.inv (show n ≤ m by omega) (show m ≤ N by omega) hu).shown
  exact (List.IsPrefix.filter _ (this.map _)).length_le

theorem open_idle (hT : rest c J K ≤ T) (ho : c.b.outSize ≠ 0) (hop : Opens c N n₀ J i) {m : Nat} (h1 : a + rest c J K + 257 * J ≤ m)
    (h2 : m ≤ a + T) {u : Nat} (hu : u < c.m.nodes) (hk : (c.nc u).kind ≠ .none) :
    Idle (pktOf (c.nc u).kind (node VA SA c va sa i m u)) := by
  have hN := w.stop
  have hst := w.start
  have hstep : ∀ n, a ≤ n → n < a + T →
      (Void (pktOf (c.nc u).kind (node VA SA c va sa i n u)) → Rests (c.nc u).mm (adapterIn (c.nc u).kind ((i n).ad u))
        (pktOf (c.nc u).kind (node VA SA c va sa i n u)) (pktOf (c.nc u).kind (node VA SA c va sa i (n + 1) u))) ∧
      ((pktOf (c.nc u).kind (node VA SA c va sa i n u)).reg = none ∨ nodeIn' (c.nc u).kind ((i n).ad u) = true →
        (pktOf (c.nc u).kind (node VA SA c va sa i (n + 1) u)).reg = none) := by
    intro n k1 k2
    obtain ⟨out, hs, -⟩ := step_of (w.inv n (by omega)) (w.inv (n + 1) (by omega)) hu
    obtain ⟨-, -, s2, s3⟩ := (w.same (n := n) (m := n + 1) (by omega) (by omega) (by omega)).2 u hu
    exact step_rests hs hk s2 s3
  obtain ⟨k, k1, k2, k3⟩ := hop.nodes (a + rest c J K) (by omega) (by omega) u hu hk
  have hreg : ∀ d, k + 1 + d ≤ a + T → (pktOf (c.nc u).kind (node VA SA c va sa i (k + 1 + d) u)).reg = none := by
    intro d
    induction d with
    | zero => intro _; exact (hstep k (by omega) (by omega)).2 (.inr k3)
    | succ d ih => intro hd; exact (hstep (k + 1 + d) (by omega) (by omega)).2 (.inl (ih (by omega)))
  have hvoid : ∀ n, a + rest c J K + J ≤ n → n ≤ a + T → Void (pktOf (c.nc u).kind (node VA SA c va sa i n u)) := by
    intro n g1 g2
    have e := w.dry_on hT ho (m := n) (by omega) g2 hu hk
    unfold waits at e
    obtain ⟨e1, e2⟩ := List.append_eq_nil_iff.1 e
    have := hreg (n - (k + 1)) (by omega)
    rw [show k + 1 + (n - (k + 1)) = n by omega] at this
    exact ⟨this, by simpa using e1, e2⟩
  -- several periods
  have hsev : ∀ d n, a + rest c J K + J ≤ n → n + d ≤ a + T → ∃ b,
      Rests (c.nc u).mm b (pktOf (c.nc u).kind (node VA SA c va sa i n u)) (pktOf (c.nc u).kind (node VA SA c va sa i (n + d) u)) ∧
      ((∃ k', n ≤ k' ∧ k' < n + d ∧ adapterIn (c.nc u).kind ((i k').ad u) = true) → b = true) := by
    intro d
    induction d with
    | zero => intro n g1 g2; exact ⟨false, .refl (hvoid n g1 (by omega)), by rintro ⟨k', l1, l2, -⟩; omega⟩
    | succ d ih =>
      intro n g1 g2
      obtain ⟨b, e1, e2⟩ := ih n g1 (by omega)
      have e3 := (hstep (n + d) (by omega) (by omega)).1 (hvoid _ (by omega) (by omega))
      refine ⟨_, e1.trans e3, ?_⟩
      rintro ⟨k', l1, l2, l3⟩
      rcases Nat.lt_or_ge k' (n + d) with hlt | hge
      · rw [e2 ⟨k', l1, hlt, l3⟩]; rfl
      · obtain rfl : k' = n + d := by omega
        rw [l3, Bool.or_true]
  have hmore : ∀ j n, a + rest c J K + J ≤ n → n + j * J ≤ a + T →
      left (pktOf (c.nc u).kind (node VA SA c va sa i (n + j * J) u)) ≤ left (pktOf (c.nc u).kind (node VA SA c va sa i n u)) - j ∧
      (1 ≤ j → (pktOf (c.nc u).kind (node VA SA c va sa i (n + j * J) u)).full = false) := by
    intro j
    induction j with
    | zero => intro n _ _; simp
    | succ j ih =>
      intro n g1 g2
      have ej : n + (j + 1) * J = n + j * J + J := by rw [Nat.add_mul]; omega
      rw [ej] at g2 ⊢
      obtain ⟨e1, -⟩ := ih n g1 (by omega)
      obtain ⟨b, e2, e3⟩ := hsev J (n + j * J) (by omega) g2
      obtain ⟨k', l1, l2, x, l3, l4⟩ := w.fair.source (n + j * J) (by omega) (by omega) u hu hk
      have hb := e3 ⟨k', l1, l2, List.any_eq_true.2 ⟨x, l3, l4⟩⟩
      rw [hb] at e2
      have e4 := e2.left
      simp only [if_true] at e4
      exact ⟨by omega, fun _ => e2.full (hop.room u hu hk) (.inl rfl)⟩
  have hv := hvoid m (by omega) h2
  obtain ⟨e1, e2⟩ := hmore 256 (m - 256 * J) (by omega) (by omega)
  rw [show m - 256 * J + 256 * J = m by omega] at e1 e2
  refine ⟨hv, Hello.left_zero ?_, e2 (by omega)⟩
  have : left (pktOf (c.nc u).kind (node VA SA c va sa i (m - 256 * J) u)) < 256 := by
    unfold left; exact Nat.mod_lt _ (by decide)
  omega

end Calm

end RadSim.MmNoc
