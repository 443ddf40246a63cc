import Verif.Lemmas.AximmDesign

/-!
# Properties C111 and C112: `aximm_hello_world`

The requester sends exactly the requests of the trace (C111); the values the driver is given are the answers of a memory which
performs the writes of the trace in their order and the reads in theirs, and when the driver stops the simulation all of them
have been performed (C112). In which order a read and a write come is left to the NoC: a read may overtake an earlier write
(`C112_program_order_violated`).
-/

namespace RadSim.Hello

open MmNoc
open MmSink (Beat)
open Net (mesh Allocs)

variable {σ τ ρ ρ' : Type} {VA : Alloc.Cls σ ρ} {SA : Alloc.Cls τ ρ'} {d : Params} {rng : Nat → Nat × Nat} {r : Nat → Nat}
  {va : Nat → σ} {sa : Nat → τ} {n N : Nat} {t : Nat → Tick ρ ρ'}

/-- C111: the program never fails, and what the adapter of the requester has taken is what the trace asks for, in order, each line
at most once. (Partial: the design has the NoC to itself, node clock and adapter clock keep to the ratio, the FIFOs are longer
than the trace.) -/
theorem C111_trace_sent_partial (hw : Works d rng r) (ha : Allocs VA SA (mesh d.noc.m) d.noc.b va sa) (hp : Paced d r N t)
    (hn : n ≤ N) : ∃ x, sysRun VA SA d va sa t n = .ok x ∧
      (x.noc.ad d.qNode).reqs.map plain <+: d.trace.flatMap (requests d) := by
  have h := all_of (VA := VA) (SA := SA) hw ha hp n hn
  obtain ⟨log, hs⟩ := h.sound
  exact ⟨_, h.ok n (le_refl _), hs.q.prefix⟩

private def rdat : Beat → Option (BitVec 512)
  | .rsp (.r x) => some x.data
  | _ => none

private theorem values_shown (l : List (Beat × Bool)) : (l.filterMap (gotOf ·.1)).filterMap id =
    ((l.map (·.1)).filter fun b => b.type = .r).filterMap rdat := by
  induction l with
  | nil => rfl
  | cons y l ih =>
    obtain ⟨b, f⟩ := y
    rcases b with b | b <;> cases b <;>
      simpa [gotOf, rdat, Beat.type, List.filter_cons] using ih

private theorem values_given (l : List RspBeat) : (l.map ansData).filterMap id =
    ((l.map Beat.rsp).filter fun b => b.type = .r).filterMap rdat := by
  induction l with
  | nil => rfl
  | cons b l ih =>
    cases b with
    | r x => exact congrArg (x.data :: ·) ih
    | b x => exact ih

theorem shown_length (l : List (Beat × Bool)) (h : ∀ y ∈ l, ∃ b, y.1 = .rsp b) :
    (l.filterMap (gotOf ·.1)).length =
      ((l.map (·.1)).filter fun b => b.type = .r).length + ((l.map (·.1)).filter fun b => b.type = .b).length := by
  induction l with
  | nil => rfl
  | cons y l ih =>
    obtain ⟨b, f⟩ := y
    obtain ⟨b', hb⟩ := h _ (List.mem_cons_self ..)
    have ih := ih fun y hy => h y (List.mem_cons_of_mem _ hy)
    dsimp only at hb
    subst hb
    cases b' <;> simp [gotOf, Beat.type] at ih ⊢ <;> omega

theorem given_length (l : List RspBeat) : l.length =
    ((l.map Beat.rsp).filter fun b => b.type = .r).length + ((l.map Beat.rsp).filter fun b => b.type = .b).length := by
  induction l with
  | nil => rfl
  | cons b l ih => cases b <;> simp [Beat.type] at ih ⊢ <;> omega

/-- C112: the values given to the driver are the answers of a memory, at first zero, which performs reads and writes one after
another in some order `log`: the writes in the order of the trace, the reads in the order of the trace. When the driver stops the
simulation all reads and writes of the trace have been performed and answered. (Partial: as C111; the order between a read and a
write is not that of the trace, `C112_program_order_violated`.) -/
theorem C112_reads_answered_partial (hw : Works d rng r) (ha : Allocs VA SA (mesh d.noc.m) d.noc.b va sa) (hp : Paced d r N t)
    (hn : n ≤ N) {x : Sys σ τ} (hx : sysRun VA SA d va sa t n = .ok x) : ∃ log : List Cmd,
      log.filter (·.write) <+: d.trace.filter (·.write) ∧ log.filter (!·.write) <+: d.trace.filter (!·.write) ∧
      x.req.got.filterMap id <+: (answers (fun _ => 0) log).filterMap id ∧ x.req.got.length ≤ log.length ∧
      (x.stops d = true → x.req.got.length = d.trace.length ∧ log.filter (·.write) = d.trace.filter (·.write) ∧
        log.filter (!·.write) = d.trace.filter (!·.write) ∧
        x.req.got.filterMap id = (answers (fun _ => 0) log).filterMap id) := by
  have h := all_of (VA := VA) (SA := SA) hw ha hp n hn
  have hxn := now_of hx
  obtain ⟨log, hs⟩ := h.sound
  have hnoc := h.noc
  rw [hxn] at hs hnoc
  obtain ⟨hsh, hpre⟩ := shown_responses hw ha (runs_of hw hp hn h.formed) hnoc hs.p.users.1
  have hr := hpre .r (.inl rfl)
  have hb := hpre .b (.inr rfl)
  have hg := hs.got
  have ho := hs.p.out
  have hval : x.req.got.filterMap id <+: ((x.noc.ad d.pNode).rsps.map ansData).filterMap id := by
    rw [hg, values_shown, values_given]
    exact hr.filterMap _
  have hpa : ((x.noc.ad d.pNode).rsps.map ansData).filterMap id <+: (answers (fun _ => 0) log).filterMap id := by
    rw [← ho, List.filterMap_append]
    exact List.prefix_append _ _
  have hlen : x.req.got.length ≤ (x.noc.ad d.pNode).rsps.length := by
    rw [hg, shown_length _ hsh, given_length (x.noc.ad d.pNode).rsps]
    exact Nat.add_le_add hr.length_le hb.length_le
  have hrl : (x.noc.ad d.pNode).rsps.length + x.rsp.resp.length = log.length := by
    have := congrArg List.length ho
    rw [answers_length, List.length_append, List.length_map, List.length_map] at this
    exact this
  refine ⟨log, hs.p.writes, hs.p.reads, hval.trans hpa, by omega, fun hst => ?_⟩
  have hst : d.trace.length ≤ x.req.got.length := of_decide_eq_true hst
  have h1 := rd_wr_length log
  have h2 := rd_wr_length d.trace
  have h3 := hs.p.reads.length_le
  have h4 := hs.p.writes.length_le
  have hresp : x.rsp.resp = [] := by
    apply List.eq_nil_of_length_eq_zero
    omega
  refine ⟨by omega, hs.p.writes.eq_of_length (by omega), hs.p.reads.eq_of_length (by omega), ?_⟩
  have hrr : shownAt x.noc d.qNode .r = ((x.noc.ad d.pNode).rsps.map Beat.rsp).filter fun b => b.type = .r := by
    refine hr.eq_of_length ?_
    have e1 : x.req.got.length = (shownAt x.noc d.qNode .r).length + (shownAt x.noc d.qNode .b).length := by
      rw [hg, shown_length _ hsh]; rfl
    have e2 := given_length (x.noc.ad d.pNode).rsps
    have e3 := hr.length_le
    have e4 := hb.length_le
    omega
  rw [← ho, hresp, List.map_nil, List.append_nil, values_given, ← hrr, hg, values_shown]
  rfl

/-- What a memory answers to reads was written to the address, or is its first content. -/
theorem answers_mem (l : List Cmd) : ∀ (m : BitVec 64 → BitVec 512) (j : Nat) (v : BitVec 512),
    ((answers m l).filterMap id)[j]? = some v → ∃ c, (l.filter (!·.write))[j]? = some c ∧
      (v = m c.addr ∨ ∃ w ∈ l, w.write = true ∧ w.addr = c.addr ∧ w.data = v) := by
  induction l with
  | nil => intro m j v h; cases h
  | cons x l ih =>
    intro m j v h
    cases hx : x.write with
    | true =>
      simp only [answers, hx, if_true, List.filterMap_cons, id] at h
      obtain ⟨c, hc, h⟩ := ih _ j v h
      refine ⟨c, by simpa [List.filter_cons, hx] using hc, ?_⟩
      rcases h with h | ⟨w, hw, h⟩
      · by_cases he : c.addr = x.addr
        · rw [if_pos he] at h
          exact .inr ⟨x, List.mem_cons_self .., hx, he.symm, h.symm⟩
        · rw [if_neg he] at h
          exact .inl h
      · exact .inr ⟨w, List.mem_cons_of_mem _ hw, h⟩
    | false =>
      simp only [answers, hx, id] at h
      cases j with
      | zero =>
        simp only [Bool.false_eq_true, if_false, List.filterMap_cons, List.getElem?_cons_zero, Option.some.injEq] at h
        exact ⟨x, by simp [hx], .inl h.symm⟩
      | succ j =>
        simp only [Bool.false_eq_true, if_false, List.filterMap_cons, List.getElem?_cons_succ] at h
        obtain ⟨c, hc, h⟩ := ih m j v h
        refine ⟨c, by simpa [List.filter_cons, hx] using hc, ?_⟩
        rcases h with h | ⟨w, hw, h⟩
        · exact .inl h
        · exact .inr ⟨w, List.mem_cons_of_mem _ hw, h⟩

private theorem get_prefix {α : Type} {l k : List α} (h : l <+: k) {j : Nat} {v : α} (hv : l[j]? = some v) : k[j]? = some v := by
  obtain ⟨s, rfl⟩ := h
  rw [List.getElem?_append_left (List.getElem?_eq_some_iff.1 hv).1]
  exact hv

/-- C112: the value given to the driver for the `j`-th read is the data of a write of the trace to the address of that read, or
zero. (Partial: as C111.) -/
theorem C112_values_from_trace_partial (hw : Works d rng r) (ha : Allocs VA SA (mesh d.noc.m) d.noc.b va sa) (hp : Paced d r N t)
    (hn : n ≤ N) {x : Sys σ τ} (hx : sysRun VA SA d va sa t n = .ok x) {j : Nat} {v : BitVec 512}
    (hv : (x.req.got.filterMap id)[j]? = some v) : ∃ c, (d.trace.filter (!·.write))[j]? = some c ∧
      (v = 0 ∨ ∃ w ∈ d.trace, w.write = true ∧ w.addr = c.addr ∧ w.data = v) := by
  obtain ⟨log, h1, h2, h3, -, -⟩ := C112_reads_answered_partial hw ha hp hn hx
  obtain ⟨c, hc, h⟩ := answers_mem log _ j v (get_prefix h3 hv)
  refine ⟨c, get_prefix h2 hc, ?_⟩
  rcases h with h | ⟨w, hm, hww, h⟩
  · exact .inl h
  · exact .inr ⟨w, (List.mem_filter.1 (h1.subset (List.mem_filter.2 ⟨hm, hww⟩))).1, hww, h⟩

namespace Example

open Alloc (islip Islip)
open Routing (dimOrderMesh)
open AxisNoc (clsOf)

def chans (t : Nat) : Nat × Nat := (t % 5, t % 5)

def node (k : Kind) : NodeCfg := ⟨k, ⟨fun t => clsOf t, fun t => clsOf t⟩, 512, 16, 2, 8⟩

/-- Two routers in a row, with the given credit delay. -/
def cfg (delay : Int) : MmNoc.Cfg where
  m := ⟨2, 1⟩
  b := ⟨0, 0, ⟨5, -1, 8, false⟩, -1, 1, 1, 1, 1, delay⟩
  rf := dimOrderMesh ⟨2, 1⟩ chans
  nc := fun u => node (if u = 0 then .slave else .master)

def params (delay : Int) (tr : List Cmd) : Params := ⟨cfg delay, tr, 16, 0, 1, 0, BitVec.ofNat 64 (2 ^ 57)⟩

def tick (k : Nat) : Tick Unit Unit where
  now := k
  rnd := fun _ _ _ => false
  rva := fun _ => ()
  rsa := fun _ => ()
  pre := fun _ => [(decide (k % 2 = 0), true)]
  post := fun _ => []
  outPre := fun _ => [some true]
  outPost := fun _ => if k % 2 = 0 then [none] else []
  edge := decide (k % 2 = 0)

def run (delay : Int) (tr : List Cmd) (n : Nat) : Except Err (Sys Islip Islip) :=
  sysRun islip islip (params delay tr) (fun _ => Islip.init 15 15 1) (fun _ => Islip.init 3 3 1) tick n

theorem setup (delay : Int) : Setup (cfg delay) chans fun _ => 2 where
  k := by show 1 ≤ 2; decide
  n := by show 1 ≤ 1; decide
  ok := ⟨⟨(by show 0 < 5; decide), (by show (0 : Int) < 8; decide), (by show (-1 : Int) ≠ 0; decide)⟩, rfl, .inl rfl, rfl, rfl, rfl, rfl⟩
  rf := rfl
  vcs := by
    intro t
    show t % 5 < 5
    omega
  one := by intro t; cases t <;> decide
  apart := by intro t t'; cases t <;> cases t' <;> decide
  types := by intro u _ _ t; cases t <;> exact ⟨rfl, rfl⟩
  clock := fun u _ _ => ⟨show 2 ≤ 2 by decide, show 2 ≤ 256 by decide, show 512 ≤ 512 by decide,
    fun t => Nat.le_max_right _ _⟩
  deep := fun _ _ _ => show (8 : Int) ≤ 8 by decide

/-- A write and a read. -/
def two : List Cmd := [⟨true, 64, 11⟩, ⟨false, 64, 0⟩]

/-- Two writes and a read of the same address. -/
def three : List Cmd := [⟨true, 64, 11⟩, ⟨true, 64, 12⟩, ⟨false, 64, 0⟩]

theorem works (delay : Int) {tr : List Cmd} (hl : tr.length < 16)
    (ht : ∀ x ∈ tr, nodeOf (BitVec.ofNat 64 (2 ^ 57) + x.addr) = 1) : Works (params delay tr) chans (fun _ => 2) where
  setup := setup delay
  q := ⟨(by show 0 < 2; decide), rfl, rfl⟩
  p := ⟨(by show 1 < 2; decide), rfl, rfl⟩
  others := by
    intro u hu h0 h1
    have : u < 2 := hu
    have h0 : u ≠ 0 := h0
    have h1 : u ≠ 1 := h1
    omega
  base := by show nodeOf 0 = 0; decide
  addrs := ht
  small := hl

theorem works_two (delay : Int) : Works (params delay two) chans (fun _ => 2) := works delay (by decide) (by decide)
theorem works_three (delay : Int) : Works (params delay three) chans (fun _ => 2) := works delay (by decide) (by decide)

theorem allocs (delay : Int) : Allocs islip islip (mesh (cfg delay).m) (cfg delay).b (fun _ => Islip.init 15 15 1)
    (fun _ => Islip.init 3 3 1) where
  va := fun _ _ => Alloc.C44_islip 15 15 1
  sa := fun _ _ => Alloc.C44_islip 3 3 1

theorem spaced (d : Nat) : ∀ n g, (g = none ∧ n % 2 = 0 ∨ g = some (1 - n % 2)) →
    Spaced 2 g ((List.range' n d).map fun k => (decide (k % 2 = 0), true)) := by
  induction d with
  | zero => intro n g _; exact trivial
  | succ d ih =>
    intro n g hg
    rw [List.range'_succ, List.map_cons]
    rcases Nat.mod_two_eq_zero_or_one n with h | h
    · rw [h] at hg
      have hd : decide (n % 2 = 0) = true := decide_eq_true h
      rw [hd]
      refine ⟨fun _ k hk => ?_, fun _ k hk => ?_, ih (n + 1) _ (.inr ?_)⟩
      · rcases hg with hg | hg
        · cases hg.1 ▸ hk
        · cases hg ▸ hk; decide
      · rcases hg with hg | hg
        · cases hg.1 ▸ hk
        · cases hg ▸ hk; decide
      · have : (n + 1) % 2 = 1 := by omega
        rw [this]; rcases hg with hg | hg
        · rw [hg.1]; rfl
        · rw [hg]; rfl
    · rw [h] at hg
      have hd : decide (n % 2 = 0) = false := decide_eq_false (by omega)
      rw [hd]
      have hg : g = some 0 := by
        rcases hg with hg | hg
        · omega
        · exact hg
      refine ⟨fun e => (by cases e), fun _ k hk => ?_, ih (n + 1) _ (.inr ?_)⟩
      · cases hg ▸ hk; decide
      · have : (n + 1) % 2 = 0 := by omega
        rw [this, hg]; rfl

theorem paced (delay : Int) (tr : List Cmd) {N : Nat} (hN : N < 2147483647) :
    Paced (params delay tr) (fun _ => 2) N tick where
  time := by
    intro k hk
    show (0 : Int) ≤ (k : Int) ∧ (k : Int) + 1 ≤ 2147483647
    omega
  source := by
    intro k _ u _
    show ([(decide (k % 2 = 0), true)] ++ []).countP (fun x : Bool × Bool => x.1) = if decide (k % 2 = 0) = true then 1 else 0
    cases decide (k % 2 = 0) <;> rfl
  sink := by
    intro k _ u _
    show ([some true] ++ if k % 2 = 0 then [none] else []).count none = if decide (k % 2 = 0) = true then 1 else 0
    by_cases h : k % 2 = 0 <;> simp [h]
  clocks := by
    intro u _
    have : edgesTo tick u N = (List.range' 0 N).map fun k => (decide (k % 2 = 0), true) := by
      rw [← List.range_eq_range', edgesTo]
      exact List.flatMap_pure_eq_map _ _
    rw [this]
    exact spaced N 0 none (.inl ⟨rfl, rfl⟩)

/-- The driver is given the response to the write, then the data of the read. -/
theorem read : (match run 1 two 75 with | .ok x => some x.req.got | .error _ => none) = some [none, some 11] := by
  decide +kernel

example : ∃ x, run 1 two 75 = .ok x ∧ (x.noc.ad 0).reqs.map plain <+:
    [.aw (BitVec.ofNat 64 (2 ^ 57 + 64)) 0, .w 11 true 0, .ar (BitVec.ofNat 64 (2 ^ 57 + 64)) 0] :=
  C111_trace_sent_partial (works_two 1) (allocs 1) (paced 1 two (by decide)) (le_refl _)

/-- As the read is not answered before the write in `read`, it must have been performed after it. -/
example {x : Sys Islip Islip} (hx : run 1 two 75 = .ok x) : ∃ log : List Cmd,
    log.filter (·.write) = [⟨true, 64, 11⟩] ∧ log.filter (!·.write) = [⟨false, 64, 0⟩] ∧
    [11] = (answers (fun _ => 0) log).filterMap id := by
  obtain ⟨log, -, -, -, -, h⟩ := C112_reads_answered_partial (works_two 1) (allocs 1) (paced 1 two (by decide)) (le_refl _) hx
  have hg : x.req.got = [none, some 11] := by
    have := read
    rw [hx] at this
    exact Option.some.inj this
  obtain ⟨-, h1, h2, h3⟩ := h (by unfold Sys.stops; rw [hg]; rfl)
  exact ⟨log, h1, h2, by rw [← h3, hg]; rfl⟩

example {x : Sys Islip Islip} (hx : run 1 two 75 = .ok x) {v : BitVec 512} (hv : (x.req.got.filterMap id)[0]? = some v) :
    ∃ c, ([⟨false, 64, 0⟩] : List Cmd)[0]? = some c ∧ (v = 0 ∨ ∃ w ∈ two, w.write = true ∧ w.addr = c.addr ∧ w.data = v) :=
  C112_values_from_trace_partial (works_two 1) (allocs 1) (paced 1 two (by decide)) (le_refl _) hx hv

/-- With a credit delay of five cycles the read gets past the second write: it is answered before it. -/
theorem overtaken : (match run 5 three 83 with | .ok x => some x.req.got | .error _ => none) = some [none, some 11] := by
  decide +kernel

end Example

/-- C112: a read which comes after two writes to its address in the trace is answered with the data of the first one, in a design
to which C111 and C112 apply: values read are not always those of the trace performed in order. -/
theorem C112_program_order_violated : ∃ (d : Params) (rng : Nat → Nat × Nat) (r : Nat → Nat) (N : Nat) (t : Nat → Tick Unit Unit)
    (x : Sys Alloc.Islip Alloc.Islip), Works d rng r ∧ Paced d r N t ∧
      Allocs Alloc.islip Alloc.islip (mesh d.noc.m) d.noc.b (fun _ => Alloc.Islip.init 15 15 1) (fun _ => Alloc.Islip.init 3 3 1) ∧
      sysRun Alloc.islip Alloc.islip d (fun _ => Alloc.Islip.init 15 15 1) (fun _ => Alloc.Islip.init 3 3 1) t N = .ok x ∧
      d.trace = [⟨true, 64, 11⟩, ⟨true, 64, 12⟩, ⟨false, 64, 0⟩] ∧
      answers (fun _ => 0) d.trace = [none, none, some 12] ∧ x.req.got = [none, some 11] := by
  have h := Example.overtaken
  cases hx : Example.run 5 Example.three 83 with
  | error e => rw [hx] at h; cases h
  | ok x =>
    rw [hx] at h
    exact ⟨Example.params 5 Example.three, Example.chans, fun _ => 2, 83, Example.tick, x, Example.works_three 5,
      Example.paced 5 _ (by decide), Example.allocs 5, hx, rfl, rfl, Option.some.inj h⟩


end RadSim.Hello
