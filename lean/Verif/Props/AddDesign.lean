import Verif.Lemmas.AddLive
import Verif.Props.AxisNocLive

/-! # The example designs `add` and `mult`

The FIFO that all example designs use, the client, and the design as a whole. -/

namespace RadSim.AddDesign

open Net (mesh Allocs Grants)

variable {σ τ ρ ρ' : Type}

/-! ## the FIFO -/

theorem fifo_run {α : Type} (c : FifoCfg) (zero : α) : ∀ (l : List (Access α)) (m : List α), m.length ≤ c.depth →
    Heeds c zero (Fifo.show c zero m) l →
    ∃ m' ws rs, fifoRun c zero (Fifo.show c zero m) l = .ok (Fifo.show c zero m', ws, rs) ∧ m ++ ws = rs ++ m' ∧
      m'.length ≤ c.depth := by
  intro l
  induction l with
  | nil => intro m hle _; exact ⟨m, [], [], rfl, by simp, hle⟩
  | cons a l ih =>
    intro m hle h
    obtain ⟨h1, h2, h3⟩ := h
    have hm : a.ren = true → m ≠ [] := by
      intro hr h0
      have := h1 hr
      rw [h0] at this
      cases this
    have hfull : a.wen = true → m.length ≠ c.depth := by
      intro hw h0
      have := h2 hw
      simp [Fifo.show, h0] at this
    have hover : a.wen = true → (if a.ren then m.tail else m).length ≠ c.depth := by
      intro hw
      have := hfull hw
      cases a.ren
      · exact this
      · simp
        omega
    have ht := tick_show c zero m a.wen a.ren a.wdata hm hover
    obtain ⟨m', ws, rs, e1, e2, e3⟩ := ih _ (by
      unfold after
      rw [List.length_append]
      cases hw : a.wen with
      | false => cases a.ren <;> simp <;> omega
      | true =>
        have h4 := hfull hw
        cases a.ren <;> simp <;> omega) (h3 _ ht)
    refine ⟨m', _, _, by rw [fifoRun, ht]; dsimp only; rw [e1], ?_, e3⟩
    rw [← List.append_assoc, List.append_assoc _ rs, ← e2]
    unfold after
    cases hr : a.ren with
    | false => simp
    | true =>
      cases m with
      | nil => exact absurd rfl (hm hr)
      | cons y m => simp [Fifo.show]

/-- C98, FIFO. If its user never reads when `empty` is shown and never writes when `full` is shown, a FIFO with a place never
stops the program, hands out what was written, in order, and shows what it holds. -/
theorem C98_fifo {α : Type} {c : FifoCfg} (hd : 0 < c.depth) (ha : 0 < c.almostFull) (zero : α) (l : List (Access α))
    (hl : Heeds c zero (.reset zero) l) :
    ∃ f ws rs, fifoRun c zero (.reset zero) l = .ok (f, ws, rs) ∧ ws = rs ++ f.mem ∧ f.mem.length ≤ c.depth ∧
      (f.empty = true ↔ f.mem.length = 0) ∧ (f.full = true ↔ f.mem.length = c.depth) ∧
      (f.almostFull = true ↔ c.almostFull ≤ f.mem.length) ∧ (f.almostEmpty = true ↔ f.mem.length ≤ c.almostEmpty) ∧
      ∀ y r, f.mem = y :: r → f.rdata = y := by
  have h0 : Fifo.reset zero = Fifo.show c zero [] := by
    have h1 : ¬ c.almostFull ≤ 0 := by omega
    have h2 : ¬ 0 = c.depth := by omega
    simp [Fifo.reset, Fifo.show, h1, h2]
  rw [h0] at hl ⊢
  obtain ⟨m, ws, rs, h1, h2, h3⟩ := fifo_run c zero l [] (by simp) hl
  refine ⟨_, ws, rs, h1, h2, h3, ?_, ?_, ?_, ?_, ?_⟩
  · simp [Fifo.show]
  · simp [Fifo.show]
  · simp [Fifo.show]
  · simp [Fifo.show]
  · intro y r h
    have : m = y :: r := h
    simp [Fifo.show, this]

/-- Two writes and a read together with a third write, in a FIFO with two places. -/
example : ∃ f ws rs, fifoRun ⟨2, 1, 0⟩ 0 (.reset 0) [⟨true, false, 7⟩, ⟨false, true, 0⟩, ⟨true, false, 8⟩, ⟨true, false, 9⟩] =
    .ok (f, ws, rs) ∧ ws = rs ++ f.mem ∧ f.full = true := by
  obtain ⟨f, ws, rs, h1, h2, h3, -, h5, -⟩ := C98_fifo (c := ⟨2, 1, 0⟩) (by decide) (by decide) 0
    [⟨true, false, 7⟩, ⟨false, true, 0⟩, ⟨true, false, 8⟩, ⟨true, false, 9⟩] (by
      simp [Heeds, Fifo.reset, Fifo.tick, Fifo.show])
  refine ⟨f, ws, rs, h1, h2, h5.2 ?_⟩
  cases h1
  rfl

/-! ## the client -/

theorem client_run {depth : Nat} : ∀ (l : List Drive) (q : List (Nat × Bool)), q.length ≤ depth - 1 →
    ∃ q' ws rs, clientRun depth (clientOf depth q) l = .ok (clientOf depth q', ws, rs) ∧ q ++ ws = rs ++ q' ∧
      q'.length ≤ depth - 1 := by
  intro l
  induction l with
  | nil => intro q hq; exact ⟨q, [], [], rfl, by simp, hq⟩
  | cons a l ih =>
    intro q hq
    have hr := ready_client depth q
    obtain ⟨q', ws, rs, e1, e2, e3⟩ := ih (after q ((clientOf depth q).ready && a.valid) a.tready (a.value, a.last)) (by
      unfold after
      rw [hr, List.length_append]
      by_cases h : q.length < depth - 1
      · cases a.valid <;> cases a.tready <;> simp [h] <;> omega
      · cases a.valid <;> cases a.tready <;> simp [h] <;> omega)
    refine ⟨q', _, _, by rw [clientRun, tick_client]; dsimp only; rw [e1], ?_, e3⟩
    rw [← List.append_assoc, List.append_assoc _ rs, ← e2, offer_client]
    unfold after
    cases a.tready <;> cases q <;> simp

/-- C98, client. Whatever driver and NoC do, no FIFO of the client over- or underflows; the client hands to the NoC, in order
and with their flags, the numbers it took; it holds at most `depth - 1`, offers a beat exactly when it holds one, namely the
oldest, and is ready exactly when it holds less than that. -/
theorem C98_client {depth : Nat} (hd : 2 ≤ depth) (l : List Drive) :
    ∃ k ws rs q, clientRun depth .reset l = .ok (k, ws, rs) ∧ ws = rs ++ q ∧ q.length ≤ depth - 1 ∧
      k.offer = q.head? ∧ (k.ready = true ↔ q.length < depth - 1) := by
  rw [reset_client hd]
  obtain ⟨q, ws, rs, h1, h2, h3⟩ := client_run l [] (by simp)
  exact ⟨_, ws, rs, q, h1, h2, h3, offer_client _ _, by rw [ready_client]; simp⟩

/-- A client with `FIFO_DEPTH` 16 takes 15 numbers and no more while the NoC takes none. -/
example : ∃ k rs, clientRun 16 .reset (List.replicate 20 ⟨true, 5, false, false⟩) = .ok (k, List.replicate 15 (5, false), rs) ∧
    k.offer = some (5, false) := by
  obtain ⟨k, ws, rs, q, h1, h2, h3, h4, -⟩ := C98_client (depth := 16) (by decide) (List.replicate 20 ⟨true, 5, false, false⟩)
  have h5 : ∃ k', clientRun 16 .reset (List.replicate 20 ⟨true, 5, false, false⟩) = .ok (k', List.replicate 15 (5, false), []) :=
    ⟨_, rfl⟩
  obtain ⟨k', h5⟩ := h5
  rw [h5] at h1
  cases h1
  refine ⟨_, _, h5, ?_⟩
  rw [h4, ← List.nil_append q, ← h2]
  rfl

/-- Counterexample for `FIFO_DEPTH` 1: the client takes at most one number, because both FIFOs count as almost full after the
first edge. -/
theorem C98_depth_one_violated (l : List Drive) :
    ∃ k ws rs, clientRun 1 .reset l = .ok (k, ws, rs) ∧ ws.length ≤ 1 := by
  have hrest : ∀ (l : List Drive) (q : List (Nat × Bool)),
      ∃ q' rs, clientRun 1 (clientOf 1 q) l = .ok (clientOf 1 q', [], rs) := by
    intro l
    induction l with
    | nil => intro q; exact ⟨q, [], rfl⟩
    | cons a l ih =>
      intro q
      have hr : (clientOf 1 q).ready = false := by rw [ready_client]; simp
      obtain ⟨q', rs, h⟩ := ih (after q ((clientOf 1 q).ready && a.valid) a.tready (a.value, a.last))
      refine ⟨q', (if a.tready then (clientOf 1 q).offer.toList else []) ++ rs, ?_⟩
      rw [clientRun, tick_client]
      dsimp only
      rw [h, hr]
      rfl
  cases l with
  | nil => exact ⟨_, [], [], rfl, by simp⟩
  | cons a l =>
    have h1 : Client.reset.tick 1 a.valid a.value a.last a.tready =
        .ok (clientOf 1 (if a.valid then [(a.value, a.last)] else [])) := by
      cases a with
      | mk valid value last tready => cases valid <;> cases tready <;> rfl
    obtain ⟨q', rs, h2⟩ := hrest l (if a.valid then [(a.value, a.last)] else [])
    refine ⟨clientOf 1 q', _, _, by rw [clientRun, h1]; dsimp only; rw [h2], ?_⟩
    cases a.valid <;> simp [Client.ready, Client.reset, Fifo.reset]

/-! ## the design -/

variable {VA : Alloc.Cls σ ρ} {SA : Alloc.Cls τ ρ'} {d : Params} {va : Nat → σ} {sa : Nat → τ} {t : Nat → Tick ρ ρ'}
  {rng : Nat → Nat × Nat}

/-- C99, safety. Nothing in the design stops the program, and the driver never reports a failure. When it reports success the
adder has taken all numbers, in order. Without numbers nothing is ever reported. -/
theorem C99_never_wrong {n : Nat} (hw : Works d rng) (ha : Allocs VA SA (mesh d.noc.m) d.noc.b va sa)
    (ht : ∀ k < n, Paced d (t k)) :
    ∃ x, run VA SA d va sa t n = .ok x ∧ x.report ≠ some false ∧
      (x.report = some true → (taken d x.noc).map (fun b => b.tdata.toNat) = d.numbers) ∧
      (d.numbers = [] → x.report = none) := by
  have hg := good_all hw ha n ht
  refine ⟨_, hg.ok, fun h => ?_, fun h => ?_, fun h => ?_⟩
  · have := (hg.adds.report _ h).2.2
    cases this
  · have := congrArg (List.map (·.1)) (hg.adds.report _ h).2.1
    rw [mark_fst, List.map_map] at this
    exact this
  · cases hr : (xs VA SA d va sa t n).report with
    | none => rfl
    | some b => exact absurd h (hg.adds.report b hr).1

/-- C99, liveness. If the clocks run, the driver reports success by the period given here. -/
theorem C99_reports_success {N n₀ J K : Nat} (hw : Works d rng) (ha : Allocs VA SA (mesh d.noc.m) d.noc.b va sa)
    (hg : Grants VA SA (mesh d.noc.m) d.noc.b va sa) (hob : d.noc.b.outSize ≠ 0)
    (hsh : ∀ u < d.noc.m.nodes, ∀ p < (d.noc.sc u).n, (numFlits ((d.noc.sc u).dataw p) : Int) ≤ d.noc.b.buf.perVc)
    (hdp : ∀ u < d.noc.m.nodes, 0 < (d.noc.sc u).depth ∧ 0 < (d.noc.mc u).outDepth) (ht : ∀ k < N, Paced d (t k))
    (hr : Runs d N n₀ J K t) (hse : Seen VA SA d va sa t N) (hne : d.numbers ≠ [])
    (hN : n₀ + ((3 * (d.noc.m.n * d.noc.m.k + 1) + 2) * (numFlits ((d.noc.sc d.client).dataw 0) * d.numbers.length) + 1) *
      (3 * K + 6 * J + 2 * (d.noc.m.nodes * ((2 * d.noc.m.n + 1) * d.noc.b.vcs)) + 7) ≤ N) :
    ∃ x, run VA SA d va sa t N = .ok x ∧ x.report = some true := by
  have good : ∀ m ≤ N, Good VA SA d va sa t m := fun m hm => good_all hw ha m fun k hk => ht k (by omega)
  have hti : ∀ k < N, AxisNoc.InTime (ins VA SA d va sa t k) := fun k hk => (ht k hk).time
  have inv : ∀ m ≤ N, AxisNoc.Inv VA SA d.noc va sa (ins VA SA d va sa t) (Sends d) m := fun m hm =>
    AxisNoc.inv_all hw.setup ha (fun u p b h => (sends_ok hw h).1) m (fun k hk => hti k (by omega))
      fun k hk => (good m hm).offered k (by omega)
  have hst : ∀ m ≤ N, AxisNoc.st VA SA d.noc va sa (ins VA SA d va sa t) m = (xs VA SA d va sa t m).noc := by
    intro m hm
    have := (inv m hm).ok
    rw [(good m hm).noc] at this
    exact (Except.ok.inj this).symm
  obtain ⟨n, h1, h2, h3, h4⟩ := AxisNoc.drained (L := 4 * J) hw.setup ha (fun u p b h => (sends_ok hw h).1) inv (fair hr).willing hg hob
    hsh hdp (B := numFlits ((d.noc.sc d.client).dataw 0) * d.numbers.length)
    (by rw [hst N (Nat.le_refl _)]; exact flits_le hw ha ht) (by
      rw [Net.mesh_slots]
      refine Nat.le_trans (Nat.le_of_eq ?_) hN
      congr 2
      omega)
  have hgot : ∀ m, n ≤ m → m ≤ n + 4 * J →
      (xs VA SA d va sa t m).noc.got d.client = (xs VA SA d va sa t n).noc.got d.client := by
    intro m m1 m2
    have := (h3 m m1 m2 d.client hw.client).1
    rwa [hst m (by omega), hst n (by omega)] at this
  -- the client has nothing left
  have hnone : ∀ m, n + J ≤ m → m < n + 4 * J → SEdge.node ∈ (t m).sPre d.client ++ (t m).sPost d.client →
      (xs VA SA d va sa t m).client.offer = none := by
    intro m m1 m2 hed
    have := AxisNoc.offers_nothing (J := J) (L := 4 * J) (n := n) inv (seen good hse) hw.client (hw.setup.ports _ hw.client).1
      (hdp _ hw.client).1 h2 (fun k k1 k2 => h3 k k1 k2 _ hw.client) ((fair hr).source n h1 (by omega) _ hw.client)
      (by
        obtain ⟨k, k1, k2, k3⟩ := hr.client n h1 (by omega)
        exact ⟨k, k1, k2, _, _, edge_of k3⟩) m m1 m2 _ _ (edge_of hed) 0 (hw.setup.ports _ hw.client).1
    unfold offers at this
    rw [if_pos ⟨rfl, rfl⟩] at this
    exact Option.map_eq_none_iff.1 this
  have hall : ((xs VA SA d va sa t n).noc.got d.client).map pairIn = mark d.numbers := by
    rw [← hgot (n + J) (by omega) (by omega)]
    refine fed (J := J) hw good (by omega) (fun m m1 m2 => ?_) (fun m m1 m2 => hnone m m1 (by omega))
      (fun k k1 k2 => hr.client k (by omega) k2)
    rw [hgot m (by omega) (by omega), hgot (n + J) (by omega) (by omega)]
  -- the adder has taken everything
  have htk : ∀ m ≤ N, n ≤ m → (taken d (xs VA SA d va sa t m).noc).map pairOut = mark d.numbers := by
    intro m hm hnm
    have hp : (taken d (xs VA SA d va sa t m).noc).map pairOut <+: mark d.numbers := by
      refine (taken_prefix hw ha (fun k hk => hti k (by omega)) (good m hm).offered (good m hm).noc).trans ?_
      obtain ⟨q, hq⟩ := (good m hm).feeds
      exact ⟨_, hq.all⟩
    refine hp.eq_of_length_le ?_
    have hl := (h4 d.adder hw.adder.1 0 (hw.setup.ports _ hw.adder.1).2).1
    have hle : ((xs VA SA d va sa t n).noc.got d.client).length ≤
        ∑ x ∈ Finset.range d.noc.m.nodes, ((AxisNoc.st VA SA d.noc va sa (ins VA SA d va sa t) n).got x).countP
          (fun b => decide (AxisNoc.portOf b = 0) && decide (AxisNoc.nodeOf (d.noc.sc x) b = d.adder)) := by
      refine Nat.le_trans (Nat.le_of_eq ?_) (Finset.single_le_sum
        (f := fun x => ((AxisNoc.st VA SA d.noc va sa (ins VA SA d va sa t) n).got x).countP
          (fun b => decide (AxisNoc.portOf b = 0) && decide (AxisNoc.nodeOf (d.noc.sc x) b = d.adder)))
        (fun _ _ => Nat.zero_le _) (Finset.mem_range.2 hw.client))
      rw [hst n (by omega), eq_comm, List.countP_eq_length]
      intro b hb
      rw [← hst n (by omega)] at hb
      obtain ⟨p, -, b', ⟨-, rfl, v, hv, l, rfl⟩, rfl⟩ := (inv n (by omega)).good _ hw.client b hb
      have := sends_node hw v l
      simp only [Bool.and_eq_true, decide_eq_true_eq]
      exact ⟨this.2, this.1⟩
    have hgr := ((AxisNoc.all_grows inv hnm hm hw.adder.1).1.del 0).length_le
    rw [hst n (by omega)] at hl hgr
    rw [hst m hm] at hgr
    unfold beatsOn at hgr
    unfold AxisNoc.deliveredAt at hl
    unfold taken
    have e := congrArg List.length hall
    simp only [List.length_map, mark_length] at *
    have e2 : ∀ l : List (Nat × AxisOut), (l.filter fun y => decide (y.1 = 0)) = l.filter fun y => y.1 == 0 := fun l => rfl
    rw [e2] at hl ⊢
    rw [hst n (by omega)] at hle
    omega
  refine ⟨_, (good N (Nat.le_refl _)).ok, reported good hne (n := n) (J := J) (by omega) (hr.ready n h1 (by omega) _ hw.adder.1)
    ?_ htk⟩
  exact hr.client (n + J) (by omega) (by omega)

/-! ## An example

Both designs on the mesh of the example for C93 with the clocks of the shipped configurations
(`rad-sim/example-designs/add/config.yml:5,10-11,39`): periods of 1 ns for the NoC, 1.25 ns for the adapters and 5 ns for the
modules. -/

namespace Example

open Alloc (islip Islip)
open RadSim.AxisNoc.Example (cfg chans setup allocs)
open RadSim.AxisNoc.LiveExample (grants)

def design (o : Op) : Params := ⟨cfg, 1, 0, 0, 16, o, [3, 10, 7]⟩

def tick (k : Nat) : Tick Unit Unit where
  now := k
  rnd := fun _ _ _ => false
  rva := fun _ => ()
  rsa := fun _ => ()
  sPre := fun _ => if k % 5 = 0 then [.node] else []
  sPost := fun _ => if k % 5 = 4 then [] else [.adapter]
  mPre := fun _ => if k % 5 = 4 then [] else [.adapter true]
  mPost := fun _ => if k % 5 = 0 then [.node] else []
  seen := fun _ => false

def result (o : Op) (n : Nat) : Option (Option Bool) :=
  match run islip islip (design o) (fun _ => Islip.init 6 6 1) (fun _ => Islip.init 3 3 1) tick n with
  | .ok x => some x.report
  | .error _ => none

/-- The report comes in period 55. -/
theorem reports : result .add 55 = some none ∧ result .add 56 = some (some true) ∧ result .mult 56 = some (some true) := by
  decide +kernel

theorem works (o : Op) : Works (design o) chans where
  setup := setup
  client := show 1 < 2 by decide
  adder := show 0 < 2 ∧ 0 < 128 by decide
  rad := ⟨show 0 < 128 by decide, rfl⟩
  wide := show 8 ≤ 512 ∧ 8 ≤ 128 by decide
  numbers := show ∀ v ∈ [3, 10, 7], v < 2 ^ 31 ∧ v < 2 ^ 8 by decide
  result := by cases o <;> decide
  depth := show 2 ≤ 16 by decide
  channel := rfl

theorem paced (o : Op) {N : Nat} (hN : N < 2 ^ 31) : ∀ k < N, Paced (design o) (tick k) := by
  intro k hk
  refine ⟨show (0 : Int) ≤ (k : Int) ∧ (k : Int) + 1 ≤ 2147483647 by omega, ?_, ?_⟩
  · unfold tick
    dsimp only
    split <;> split <;> decide
  · unfold tick
    dsimp only
    split <;> split <;> decide

theorem runs (o : Op) (N : Nat) : Runs (design o) N 0 5 1 tick where
  one := by
    intro k _ u _
    unfold tick
    dsimp only
    split <;> split <;> decide
  source := by
    intro k _ _ u _
    refine ⟨if k % 5 = 4 then k + 1 else k, by split <;> omega, by split <;> omega, ?_⟩
    unfold tick
    dsimp only
    rw [if_neg (show ¬ (if k % 5 = 4 then k + 1 else k) % 5 = 4 by split <;> omega)]
    simp
  client := by
    intro k _ _
    refine ⟨(k + 4) / 5 * 5, by omega, by omega, ?_⟩
    unfold tick
    dsimp only
    rw [if_pos (show (k + 4) / 5 * 5 % 5 = 0 by omega)]
    simp
  sink := by
    intro k _ _ u _
    refine ⟨if k % 5 = 4 then k + 1 else k, by split <;> omega, by split <;> omega, true, ?_⟩
    unfold tick
    dsimp only
    rw [if_neg (show ¬ (if k % 5 = 4 then k + 1 else k) % 5 = 4 by split <;> omega)]
    simp
  ready := by
    intro k _ _ u _
    refine ⟨(k + 4) / 5 * 5, by omega, by omega, ?_⟩
    unfold tick
    dsimp only
    rw [if_pos (show (k + 4) / 5 * 5 % 5 = 0 by omega)]
    simp
  time := by
    intro m n h _
    show (m : Int) + 1 ≤ (n : Int) ∧ (m : Int) ≤ (n : Int)
    omega

/-- Both designs report success by period 4288 at the latest. -/
example (o : Op) {N : Nat} (h1 : 4288 ≤ N) (h2 : N < 2 ^ 31) : result o N = some (some true) := by
  obtain ⟨x, hx, hr⟩ := C99_reports_success (works o) allocs grants (by cases o <;> decide)
    (by cases o <;> decide) (by cases o <;> decide) (paced o h2) (runs o N)
    (fun k _ x y _ _ u _ h => (by cases h)) (show [3, 10, 7] ≠ [] by decide)
    (Nat.le_trans (show 0 + ((3 * (1 * 2 + 1) + 2) * (numFlits 8 * 3) + 1) * (3 * 1 + 6 * 5 + 2 * (2 * ((2 * 1 + 1) * 2)) + 7) ≤ 4288
      by decide) h1)
  unfold result
  rw [hx]
  exact congrArg some hr

/-- And they never report anything else. -/
example (o : Op) {N : Nat} (h2 : N < 2 ^ 31) : result o N ≠ some (some false) := by
  obtain ⟨x, hx, hr, -, -⟩ := C99_never_wrong (works o) allocs (paced o h2)
  unfold result
  rw [hx]
  exact fun h => hr (Option.some.inj h)

end Example

end RadSim.AddDesign
