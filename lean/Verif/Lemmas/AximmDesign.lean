import Verif.Lemmas.AximmCarry

/-! # `aximm_hello_world`: what holds after every period -/

namespace RadSim.Hello

open MmNoc
open MmSink (Beat)
open Net (Msg mesh Allocs)

variable {σ τ ρ ρ' : Type} {VA : Alloc.Cls σ ρ} {SA : Alloc.Cls τ ρ'} {d : Params} {rng : Nat → Nat × Nat} {r : Nat → Nat}
  {va : Nat → σ} {sa : Nat → τ} {n N : Nat} {i : Nat → In ρ ρ'} {t : Nat → Tick ρ ρ'}

/-! ## runs made of periods of the design -/

def FitsQ (d : Params) (o : ReqOffer) : Prop := ∀ b ∈ ReqOffer.beats o, ReqFits d.noc d.qNode b
def FitsP (d : Params) (o : RspOffer) : Prop := ∀ b ∈ RspOffer.beats o, RspFits d.noc d.pNode b

theorem fill_mem {α : Type} {o o' : α} (l : List (Bool × Bool)) : ∀ x ∈ fill o o' l, x.2.2 = o ∨ x.2.2 = o' := by
  induction l with
  | nil => intro x hx; cases hx
  | cons y l ih =>
    obtain ⟨a, b⟩ := y
    intro x hx
    cases a with
    | true =>
      simp only [fill, List.mem_cons, List.mem_map] at hx
      rcases hx with rfl | ⟨z, -, rfl⟩
      · exact Or.inr rfl
      · exact Or.inr rfl
    | false =>
      simp only [fill, List.mem_cons] at hx
      rcases hx with rfl | hx
      · exact Or.inl rfl
      · exact ih x hx

theorem clocks_q (hw : Works d rng r) (t : Tick ρ ρ') (x : Sys σ τ) (q : ReqOffer) (p : RspOffer) :
    clocksOf (d.noc.nc d.qNode).kind (nodeIn d t x q p d.qNode) = t.pre d.qNode ++ t.post d.qNode := by
  rw [q_in, hw.q.2.1]
  simp only [clocksOf]
  rw [List.take_append_drop, fill_flags]

theorem clocks_p (hw : Works d rng r) (t : Tick ρ ρ') (x : Sys σ τ) (q : ReqOffer) (p : RspOffer) :
    clocksOf (d.noc.nc d.pNode).kind (nodeIn d t x q p d.pNode) = t.pre d.pNode ++ t.post d.pNode := by
  rw [p_in hw.ne, hw.p.2.1]
  simp only [clocksOf]
  rw [List.take_append_drop, fill_flags]

/-- The inputs of the first `n` periods are those of the design. -/
def Formed (d : Params) (t : Nat → Tick ρ ρ') (n : Nat) (σ τ : Type) (i : Nat → In ρ ρ') : Prop :=
  ∀ k < n, ∃ (x : Sys σ τ) (q : ReqOffer) (p : RspOffer), i k = input d (t k) x q p ∧
    FitsQ d x.req.off ∧ FitsQ d q ∧ FitsP d x.rsp.off ∧ FitsP d p

theorem clocksTo_q (hw : Works d rng r) (hf : Formed d t n σ τ i) :
    clocksTo (d.noc.nc d.qNode).kind (fun k => (i k).ad d.qNode) n = edgesTo t d.qNode n := by
  unfold clocksTo edgesTo
  refine List.flatMap_congr fun k hk => ?_
  obtain ⟨x, q, p, e, -⟩ := hf k (List.mem_range.1 hk)
  dsimp only
  rw [e]
  exact clocks_q hw _ _ _ _

theorem clocksTo_p (hw : Works d rng r) (hf : Formed d t n σ τ i) :
    clocksTo (d.noc.nc d.pNode).kind (fun k => (i k).ad d.pNode) n = edgesTo t d.pNode n := by
  unfold clocksTo edgesTo
  refine List.flatMap_congr fun k hk => ?_
  obtain ⟨x, q, p, e, -⟩ := hf k (List.mem_range.1 hk)
  dsimp only
  rw [e]
  exact clocks_p hw _ _ _ _

theorem edgesTo_add (t : Nat → Tick ρ ρ') (u n k : Nat) : ∃ z, edgesTo t u (n + k) = edgesTo t u n ++ z := by
  unfold edgesTo
  rw [List.range_add, List.flatMap_append]
  exact ⟨_, rfl⟩

theorem edgesTo_succ (t : Nat → Tick ρ ρ') (u n : Nat) : edgesTo t u (n + 1) = edgesTo t u n ++ ((t n).pre u ++ (t n).post u) := by
  unfold edgesTo
  rw [List.range_succ, List.flatMap_append]
  simp

theorem Paced.to (hp : Paced d r N t) (hn : n ≤ N) {u : Nat} (hu : u = d.qNode ∨ u = d.pNode) : Spaced (r u) none (edgesTo t u n) := by
  obtain ⟨k, rfl⟩ := Nat.exists_eq_add_of_le hn
  obtain ⟨z, hz⟩ := edgesTo_add t u n k
  have := hp.clocks u hu
  rw [hz, spaced_append] at this
  exact this.1

theorem Paced.period (hp : Paced d r N t) (hn : n < N) {u : Nat} (hu : u = d.qNode ∨ u = d.pNode) :
    Spaced (r u) (gapAfter none (edgesTo t u n)) ((t n).pre u ++ (t n).post u) := by
  have := hp.to (n := n + 1) hn hu
  rw [edgesTo_succ, spaced_append] at this
  exact this.2

theorem runs_of (hw : Works d rng r) (hp : Paced d r N t) (hn : n ≤ N) (hf : Formed d t n σ τ i) : Runs d.noc r n i where
  time k hk := by
    obtain ⟨x, q, p, e, -⟩ := hf k hk
    rw [e]
    exact hp.time k (by omega)
  offers k hk := by
    obtain ⟨x, q, p, e, f1, f2, f3, f4⟩ := hf k hk
    rw [e]
    refine ⟨fun u hu hk y hy => ?_, fun u hu hk y hy => ?_⟩
    · have huq : u = d.qNode := by
        by_contra h1
        by_cases h2 : u = d.pNode
        · rw [h2, hw.p.2.1] at hk; cases hk
        · rw [hw.others u hu h1 h2] at hk; cases hk
      subst huq
      have hy' : y ∈ (nodeIn d (t k) x q p d.qNode).reqPre ++ (nodeIn d (t k) x q p d.qNode).reqPost := hy
      rw [q_in] at hy'
      dsimp only at hy'
      rw [List.take_append_drop] at hy'
      have hfit : FitsQ d y.2.2 := by
        rcases fill_mem _ y hy' with e | e <;> rw [e] <;> assumption
      refine ⟨fun a h => hfit _ ?_, fun a h => hfit _ ?_, fun a h => hfit _ ?_⟩ <;> simp [ReqOffer.beats, h]
    · have huq : u = d.pNode := by
        by_contra h1
        by_cases h2 : u = d.qNode
        · rw [h2, hw.q.2.1] at hk; cases hk
        · rw [hw.others u hu h2 h1] at hk; cases hk
      subst huq
      have hy' : y ∈ (nodeIn d (t k) x q p d.pNode).rspPre ++ (nodeIn d (t k) x q p d.pNode).rspPost := hy
      rw [p_in hw.ne] at hy'
      dsimp only at hy'
      rw [List.take_append_drop] at hy'
      have hfit : FitsP d y.2.2 := by
        rcases fill_mem _ y hy' with e | e <;> rw [e] <;> assumption
      refine ⟨fun a h => hfit _ ?_, fun a h => hfit _ ?_⟩ <;> simp [RspOffer.beats, h]
  clocks u hu := by
    by_cases h1 : u = d.qNode
    · subst h1
      rw [clocksTo_q hw hf]
      exact (hp.to hn (Or.inl rfl)).gapOk
    · by_cases h2 : u = d.pNode
      · subst h2
        rw [clocksTo_p hw hf]
        exact (hp.to hn (Or.inr rfl)).gapOk
      · rw [hw.others u hu h1 h2]
        have : clocksTo .none (fun k => (i k).ad u) n = [] := by
          unfold clocksTo
          rw [List.flatMap_eq_nil_iff]
          intro k _
          rfl
        rw [this]
        trivial

theorem QInv.fits {v : Driver} {q : Requester} {reqs : List ReqBeat} {busy : Bool} (hw : Works d rng r)
    (h : QInv d v q reqs busy) : FitsQ d q.off := by
  obtain ⟨id, acc, l, e, hl⟩ := h.offs
  intro b hb
  rw [e] at hb
  obtain ⟨x, k, rfl, hc⟩ := plain_offer hb
  have hx := hw.addrs x (hl x List.mem_cons_self)
  have hpn : nodeOf (d.pBase + x.addr) < d.noc.m.nodes ∧ (d.noc.nc (nodeOf (d.pBase + x.addr))).kind = .master := by
    rw [hx]; exact ⟨hw.p.1, hw.p.2.1⟩
  rcases hc with ⟨-, ⟨-, h1, h2⟩ | ⟨h1, h2⟩⟩ | ⟨-, h1, h2⟩
  · obtain ⟨-, -, a, rfl⟩ := isAw_iff h1
    have : a.addr = d.pBase + x.addr := by unfold plain toAw at h2; injection h2
    show nodeOf a.addr < _ ∧ (d.noc.nc (nodeOf a.addr)).kind = .master
    rw [this]; exact hpn
  · obtain ⟨-, -, a, rfl⟩ := isW_iff h1
    show a.data.toNat < 2 ^ (d.noc.nc d.qNode).dataw
    rw [hw.q.2.2]
    exact BitVec.isLt a.data
  · obtain ⟨-, -, a, rfl⟩ := isAr_iff h1
    have : a.addr = d.pBase + x.addr := by unfold plain toAr at h2; injection h2
    show nodeOf a.addr < _ ∧ (d.noc.nc (nodeOf a.addr)).kind = .master
    rw [this]; exact hpn

theorem PInv.fits {p : Responder} {sp : List Plain} {rsps : List RspBeat} {busy : Bool} {log : List Cmd} (hw : Works d rng r)
    (h : PInv d p sp rsps busy log) : FitsP d p.off := by
  obtain ⟨id, l, e, hl⟩ := h.offs
  intro b hb
  rw [e] at hb
  cases l with
  | nil => simp [rspOffer, RspOffer.beats] at hb
  | cons x l =>
    have hx := hl x List.mem_cons_self
    have hqn : nodeOf x.addr < d.noc.m.nodes ∧ (d.noc.nc (nodeOf x.addr)).kind = .slave := by
      rw [hx, hw.base]; exact ⟨hw.q.1, hw.q.2.1⟩
    simp only [rspOffer] at hb
    split at hb
    · simp [RspOffer.beats] at hb
      subst hb
      exact hqn
    · simp [RspOffer.beats] at hb
      subst hb
      refine ⟨hqn.1, hqn.2, ?_⟩
      rw [hw.p.2.2]
      exact BitVec.isLt x.data

/-! ## the state after every period -/

theorem after_congr {c : Cfg} {i j : Nat → In ρ ρ'} : ∀ {n : Nat}, (∀ k < n, i k = j k) →
    MmNoc.after VA SA c va sa i n = MmNoc.after VA SA c va sa j n
  | 0, _ => rfl
  | n + 1, h => by
    have ih := after_congr (n := n) (c := c) (i := i) (j := j) fun k hk => h k (by omega)
    unfold MmNoc.after at ih ⊢
    unfold Noc.after
    rw [ih, h n (by omega)]

theorem after_succ {c : Cfg} {i : Nat → In ρ ρ'} {x : MmNoc.Sys σ τ} (h : MmNoc.after VA SA c va sa i n = .ok x) :
    MmNoc.after VA SA c va sa i (n + 1) = Noc.step VA SA c.noc (i n) x := by
  unfold MmNoc.after at h ⊢
  rw [Noc.after, h]

/-- The state after `n` periods, if there is one. -/
def now (VA : Alloc.Cls σ ρ) (SA : Alloc.Cls τ ρ') (d : Params) (va : Nat → σ) (sa : Nat → τ) (t : Nat → Tick ρ ρ') (n : Nat) : Sys σ τ :=
  match sysRun VA SA d va sa t n with
  | .ok x => x
  | .error _ => .init d va sa

/-- What the NoC sees in a period. -/
def ins (VA : Alloc.Cls σ ρ) (SA : Alloc.Cls τ ρ') (d : Params) (va : Nat → σ) (sa : Nat → τ) (t : Nat → Tick ρ ρ') (n : Nat) : In ρ ρ' :=
  input d (t n) (now VA SA d va sa t n) (now VA SA d va sa t (n + 1)).req.off (now VA SA d va sa t (n + 1)).rsp.off

theorem now_of {x : Sys σ τ} (h : sysRun VA SA d va sa t n = .ok x) : now VA SA d va sa t n = x := by
  unfold now
  rw [h]

def gotOf : Beat → Option (Option (BitVec 512))
  | .rsp (.r x) => some (some x.data)
  | .rsp (.b _) => some none
  | .req _ => none

/-- What holds of a state. -/
structure Sound (d : Params) (x : Sys σ τ) (log : List Cmd) : Prop where
  qoff : (x.noc.ad d.qNode).req.off = x.req.off
  poff : (x.noc.ad d.pNode).rsp.off = x.rsp.off
  q : QInv d x.drv x.req (x.noc.ad d.qNode).reqs (x.noc.ad d.qNode).req.k.reg.isSome
  p : PInv d x.rsp ((x.noc.ad d.pNode).hist.shown.filterMap (beatPlain ·.1)) (x.noc.ad d.pNode).rsps
    (x.noc.ad d.pNode).rsp.k.reg.isSome log
  got : x.req.got = (x.noc.ad d.qNode).hist.shown.filterMap (gotOf ·.1)

structure All (VA : Alloc.Cls σ ρ) (SA : Alloc.Cls τ ρ') (d : Params) (va : Nat → σ) (sa : Nat → τ) (t : Nat → Tick ρ ρ') (n : Nat) : Prop where
  ok : ∀ k ≤ n, sysRun VA SA d va sa t k = .ok (now VA SA d va sa t k)
  fits : ∀ k ≤ n, FitsQ d (now VA SA d va sa t k).req.off ∧ FitsP d (now VA SA d va sa t k).rsp.off
  noc : MmNoc.after VA SA d.noc va sa (ins VA SA d va sa t) n = .ok (now VA SA d va sa t n).noc
  sound : ∃ log, Sound d (now VA SA d va sa t n) log

theorem All.formed (h : All VA SA d va sa t n) : Formed d t n σ τ (ins VA SA d va sa t) := fun k hk =>
  ⟨now VA SA d va sa t k, _, _, rfl, (h.fits k (by omega)).1, (h.fits (k + 1) hk).1, (h.fits k (by omega)).2, (h.fits (k + 1) hk).2⟩

theorem all_zero (hw : Works d rng r) : All VA SA d va sa t 0 := by
  have hn : now VA SA d va sa t 0 = .init d va sa := rfl
  have hq : (d.noc.nc d.qNode).kind = .slave := hw.q.2.1
  have hs : Sound d (Sys.init d va sa) [] := ⟨rfl, rfl, QInv.init, PInv.init, rfl⟩
  refine ⟨fun k hk => ?_, fun k hk => ?_, rfl, [], ?_⟩
  · obtain rfl : k = 0 := by omega
    rfl
  · obtain rfl : k = 0 := by omega
    rw [hn]
    exact ⟨hs.q.fits hw, hs.p.fits hw⟩
  · rw [hn]; exact hs

/-- A period of the NoC after `n` periods of the design, whatever the modules drive. -/
theorem extend (hw : Works d rng r) (ha : Allocs VA SA (mesh d.noc.m) d.noc.b va sa) (hp : Paced d r N t) (h : All VA SA d va sa t n)
    (hn : n < N) {q : ReqOffer} {p : RspOffer} (hq : FitsQ d q) (hpp : FitsP d p) : ∃ (y : MmNoc.Sys σ τ) (j : Nat → In ρ ρ'),
      Noc.step VA SA d.noc.noc (input d (t n) (now VA SA d va sa t n) q p) (now VA SA d va sa t n).noc = .ok y ∧
      MmNoc.after VA SA d.noc va sa j (n + 1) = .ok y ∧ Runs d.noc r (n + 1) j := by
  let j : Nat → In ρ ρ' := fun k => if k < n then ins VA SA d va sa t k else input d (t n) (now VA SA d va sa t n) q p
  have hj : ∀ k < n, j k = ins VA SA d va sa t k := fun k hk => if_pos hk
  have hjn : j n = input d (t n) (now VA SA d va sa t n) q p := if_neg (by omega)
  have hf : Formed d t (n + 1) σ τ j := by
    intro k hk
    by_cases hkn : k < n
    · rw [hj k hkn]; exact h.formed k hkn
    · obtain rfl : k = n := by omega
      exact ⟨now VA SA d va sa t k, q, p, hjn, (h.fits k (Nat.le_refl k)).1, hq, (h.fits k (Nat.le_refl k)).2, hpp⟩
  have hr : Runs d.noc r (n + 1) j := runs_of hw hp hn hf
  obtain ⟨y, hy, -⟩ := C108_system_never_fails_partial hw.setup ha hr
  refine ⟨y, j, ?_, hy, hr⟩
  have h0 : MmNoc.after VA SA d.noc va sa j n = .ok (now VA SA d va sa t n).noc := by
    rw [after_congr hj]; exact h.noc
  rw [after_succ h0, hjn] at hy
  exact hy

/-- What is known of the adapters at the nodes of the modules. -/
theorem goods (hw : Works d rng r) (ha : Allocs VA SA (mesh d.noc.m) d.noc.b va sa) (hp : Paced d r N t) (h : All VA SA d va sa t n)
    (hn : n ≤ N) :
    (∃ se cr, GoodReq d.noc (gapAfter none (edgesTo t d.qNode n)) d.qNode ((now VA SA d va sa t n).noc.ad d.qNode) se cr) ∧
    ∃ se cr, GoodRsp d.noc (gapAfter none (edgesTo t d.pNode n)) d.pNode ((now VA SA d va sa t n).noc.ad d.pNode) se cr := by
  have hr : Runs d.noc r n (ins VA SA d va sa t) := runs_of hw hp hn h.formed
  have hi := inv_of hw.setup ha hr
  have hst := state_of hw.setup ha hr (Nat.le_refl n) h.noc
  constructor
  · have := hi.good d.qNode hw.q.1
    unfold Good at this
    rw [hw.q.2.1] at this
    dsimp only at this
    have hg := this.1
    unfold gapTo at hg
    rw [clocksTo_q hw h.formed] at hg
    rw [hst]
    exact ⟨_, _, hg⟩
  · have := hi.good d.pNode hw.p.1
    unfold Good at this
    rw [hw.p.2.1] at this
    dsimp only at this
    have hg := this.1
    unfold gapTo at hg
    rw [clocksTo_p hw h.formed] at hg
    rw [hst]
    exact ⟨_, _, hg⟩

theorem response_one (b : RspBeat) : response [(.rsp b, true)] = (gotOf (.rsp b)).toList := by
  cases b <;> rfl

theorem all_step (hw : Works d rng r) (ha : Allocs VA SA (mesh d.noc.m) d.noc.b va sa) (hp : Paced d r N t) (h : All VA SA d va sa t n)
    (hn : n < N) : All VA SA d va sa t (n + 1) := by
  obtain ⟨log, hs⟩ := h.sound
  obtain ⟨⟨se, cr, gq⟩, ⟨se', cr', gp⟩⟩ := goods hw ha hp h (by omega)
  have fq := (h.fits n (Nat.le_refl n)).1
  have fp := (h.fits n (Nat.le_refl n)).2
  have hok := h.ok n (Nat.le_refl n)
  -- it is enough to find the next state
  suffices hfin : ∃ (x' : Sys σ τ) (log' : List Cmd), step VA SA d (t n) (now VA SA d va sa t n) = .ok x' ∧ Sound d x' log' ∧
      Noc.step VA SA d.noc.noc (input d (t n) (now VA SA d va sa t n) x'.req.off x'.rsp.off) (now VA SA d va sa t n).noc = .ok x'.noc by
    obtain ⟨x', log', h1, h2, h3⟩ := hfin
    have hrun : sysRun VA SA d va sa t (n + 1) = .ok x' := by
      rw [sysRun, hok]
      exact h1
    have hx' := now_of hrun
    refine ⟨fun k hk => ?_, fun k hk => ?_, ?_, log', ?_⟩
    · rcases Nat.lt_or_ge k (n + 1) with hk' | hk'
      · exact h.ok k (by omega)
      · obtain rfl : k = n + 1 := by omega
        rw [hx']; exact hrun
    · rcases Nat.lt_or_ge k (n + 1) with hk' | hk'
      · exact h.fits k (by omega)
      · obtain rfl : k = n + 1 := by omega
        rw [hx']; exact ⟨h2.q.fits hw, h2.p.fits hw⟩
    · rw [after_succ h.noc]
      unfold ins
      rw [hx']
      exact h3
    · rw [hx']; exact h2
  generalize hx : now VA SA d va sa t n = x at *
  obtain ⟨y, j, hy, hyj, hrj⟩ := extend hw ha hp h hn (hx ▸ fq) (hx ▸ fp)
  rw [hx] at hy
  have hcq := hp.source n hn d.qNode (Or.inl rfl)
  have hcp := hp.source n hn d.pNode (Or.inr rfl)
  have hoq := hp.sink n hn d.qNode (Or.inl rfl)
  have hop := hp.sink n hn d.pNode (Or.inr rfl)
  obtain ⟨net, -, hnet⟩ := step_nodes hy
  obtain ⟨outq, hq1⟩ := hnet d.qNode hw.q.1
  obtain ⟨outp, hp1⟩ := hnet d.pNode hw.p.1
  by_cases he : (t n).edge = true
  · rw [if_pos he] at hcq hcp hoq hop
    -- the period in which the modules keep their outputs
    obtain ⟨-, hsq, lq, eq1, eq2, eq3, eq4⟩ := q_edge hq1 hw.q.2.1 hs.qoff hcq hoq
      (hw.setup.clock _ hw.q.1 (by rw [hw.q.2.1]; intro e; cases e)) gq.inv gq.opened (hp.period hn (Or.inl rfl))
    obtain ⟨-, hsp, lp, ep1, ep2, ep3, ep4⟩ := p_edge hp1 hw.p.2.1 hw.ne hs.poff hcp hop
      (hw.setup.clock _ hw.p.1 (by rw [hw.p.2.1]; intro e; cases e)) gp.ready gp.pkt (hp.period hn (Or.inr rfl))
    have hyg := (inv_of hw.setup ha hrj).good d.qNode hw.q.1
    rw [← state_of hw.setup ha hrj (Nat.le_refl _) hyj] at hyg
    unfold Good at hyg
    rw [hw.q.2.1] at hyg
    have hopen : wOnlyOpen false (y.ad d.qNode).reqs := hyg.1.opened
    -- the requester
    have hQ : ∃ q', x.req.edge d (x.drv.offer d.trace) hsq lq = some q' ∧ q'.got = x.req.got ++ response lq ∧
        QInv d (x.drv.edge d.trace (!x.req.full)) q' (y.ad d.qNode).reqs (hsq ≠ []) := by
      rcases eq3 with ⟨rfl, -⟩ | ⟨b, rfl, hb, hreg, -⟩
      · obtain ⟨q', k1, k2, k3⟩ := hs.q.edge_none lq
        exact ⟨q', k1, k2, by rw [eq1, List.append_nil]; simpa using k3⟩
      · have hQ0 := hs.q
        rw [hreg] at hQ0
        obtain ⟨q', k1, k2, k3⟩ := hQ0.edge_some hb (by rw [← eq1]; exact hopen) lq
        exact ⟨q', k1, k2, by rw [eq1]; simpa using k3⟩
    obtain ⟨q', hq2, hq3, hq4⟩ := hQ
    obtain ⟨hsr, hpre⟩ := shown_requests hw ha hrj hyj hq4.prefix hopen
    -- the responder
    have hlp : lp = [] ∨ ∃ b, lp = [(.req b, true)] := by
      rcases ep4 with e | ⟨a, e⟩
      · exact Or.inl e
      · obtain ⟨b, hb⟩ := hsr (a, x.rsp.ready a.type) (by rw [ep2, e]; exact List.mem_append_right _ (List.mem_singleton_self _))
        dsimp only at hb
        subst hb
        refine Or.inr ⟨b, ?_⟩
        rw [e]
        obtain ⟨g1, g2, g3, g4⟩ := hs.p.flags
        cases b <;> simp [Responder.ready, MmSink.Beat.type, g1, g2, g3, g4]
    have hpre' : ∀ k, ((x.noc.ad d.pNode).hist.shown.filterMap (beatPlain ·.1) ++ lp.filterMap (beatPlain ·.1)).filter (kindOf · = k) <+:
        (d.trace.flatMap (requests d)).filter (kindOf · = k) := by
      intro k
      rw [← List.filterMap_append, ← ep2]
      exact (hpre k).trans (hq4.prefix.filter _)
    have hhs : hsp = [] ∨ (x.noc.ad d.pNode).rsp.k.reg.isSome = false ∧ ∃ b, hsp = [b] ∧ b ∈ RspOffer.beats x.rsp.off := by
      rcases ep3 with ⟨e, -⟩ | ⟨b, e, hb, hreg, -⟩
      · exact Or.inl e
      · exact Or.inr ⟨by rw [hreg]; rfl, b, e, hb⟩
    obtain ⟨p', log', hp2, hp3⟩ := hs.p.edge hw.small lp hlp hpre' hsp hhs
    -- the period itself
    obtain ⟨z, -, hz, -, -⟩ := extend hw ha hp h hn (hq4.fits hw) (hp3.fits hw)
    rw [hx] at hz
    have henv : Noc.env d.noc.noc (input d (t n) x x.req.off x.rsp.off) x.noc =
        Noc.env d.noc.noc (input d (t n) x q'.off p'.off) x.noc := rfl
    obtain ⟨l1, a1, o1, o1', tq, tq'⟩ := step_twice hy hz henv d.qNode hw.q.1
    obtain ⟨l2, a2, o2, o2', tp, tp'⟩ := step_twice hy hz henv d.pNode hw.p.1
    obtain ⟨sq1, sq2⟩ := q_same tq tq' hw.q.2.1 (Nat.le_of_eq hcq)
    obtain ⟨sp1, sp2⟩ := p_same tp tp' hw.p.2.1 hw.ne (Nat.le_of_eq hcp)
    obtain ⟨zq0, hsq', lq', zq1, zq2, zq3, -⟩ := q_edge tq' hw.q.2.1 hs.qoff hcq hoq
      (hw.setup.clock _ hw.q.1 (by rw [hw.q.2.1]; intro e; cases e)) gq.inv gq.opened (hp.period hn (Or.inl rfl))
    obtain ⟨zp0, hsp', lp', zp1, zp2, zp3, -⟩ := p_edge tp' hw.p.2.1 hw.ne hs.poff hcp hop
      (hw.setup.clock _ hw.p.1 (by rw [hw.p.2.1]; intro e; cases e)) gp.ready gp.pkt (hp.period hn (Or.inr rfl))
    have e1 : hsq' = hsq := List.append_cancel_left (zq1.symm.trans (sq1.symm.trans eq1))
    have e2 : hsp' = hsp := List.append_cancel_left (zp1.symm.trans (sp1.symm.trans ep1))
    subst e1 e2
    have busyq : (z.ad d.qNode).req.k.reg.isSome = decide (hsq' ≠ []) := by
      rcases zq3 with ⟨rfl, e⟩ | ⟨b, rfl, -, -, e⟩
      · rw [e]; rfl
      · rw [e]; rfl
    have busyp : (z.ad d.pNode).rsp.k.reg.isSome = decide (hsp' ≠ []) := by
      rcases zp3 with ⟨rfl, e⟩ | ⟨b, rfl, -, -, e⟩
      · rw [e]; rfl
      · rw [e]; rfl
    refine ⟨⟨z, x.drv.edge d.trace (!x.req.full), q', p'⟩, log', ?_, ⟨zq0, zp0, ?_, ?_, ?_⟩, hz⟩
    · unfold step
      rw [hy]
      dsimp only
      rw [if_pos he]
      have hm : modules d x y = .ok (x.drv.edge d.trace (!x.req.full), q', p') := by
        unfold modules
        rw [eq1, eq2, ep1, ep2, List.drop_left, List.drop_left, List.drop_left, List.drop_left, hq2]
        dsimp only
        rw [hp2]
      rw [hm]
      dsimp only
      rw [hz]
    · dsimp only
      rw [busyq, ← sq1]
      exact hq4
    · dsimp only
      rw [busyp, ← sp1, ← sp2, ep1, ep2, List.filterMap_append]
      exact hp3
    · dsimp only
      rw [hq3, ← sq2, eq2, List.filterMap_append, hs.got]
      congr 1
      rcases eq4 with rfl | ⟨a, rfl⟩
      · rfl
      · obtain ⟨hr1, -⟩ := shown_responses hw ha hrj hyj (by
          intro b hb
          rw [ep1] at hb
          exact hp3.users.1 b hb)
        obtain ⟨b, hb⟩ := hr1 (a, true) (by rw [eq2]; exact List.mem_append_right _ (List.mem_singleton_self _))
        dsimp only at hb
        subst hb
        rw [response_one]
        cases b <;> rfl
  · have he' : (t n).edge = false := by simpa using he
    rw [he'] at hcq hcp hoq hop
    obtain ⟨q1, q2, q3, q4⟩ := q_still hq1 hw.q.2.1 hs.qoff hcq hoq
    obtain ⟨p1, p2, p3, p4⟩ := p_still hp1 hw.p.2.1 hw.ne hs.poff hcp hop
    refine ⟨{ x with noc := y }, log, ?_, ⟨q1, p1, ?_, ?_, ?_⟩, hy⟩
    · unfold step
      rw [hy]
      dsimp only
      rw [if_neg he]
    · dsimp only; rw [q2, q3]; exact hs.q
    · dsimp only; rw [p2, p3, p4]; exact hs.p
    · dsimp only; rw [q4]; exact hs.got

theorem all_of (hw : Works d rng r) (ha : Allocs VA SA (mesh d.noc.m) d.noc.b va sa) (hp : Paced d r N t) :
    ∀ n ≤ N, All VA SA d va sa t n
  | 0, _ => all_zero hw
  | n + 1, hn => all_step hw ha hp (all_of hw ha hp n (by omega)) hn

end RadSim.Hello
