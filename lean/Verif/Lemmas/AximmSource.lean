import Verif.Spec.AximmDesign
import Verif.Lemmas.MmNocDrain

/-! # The source sides of adapters whose node clock has one edge in a period -/

namespace RadSim.Hello

open MmNoc

/-! ## clocks -/

theorem Spaced.gapOk {m : Nat} (l : List (Bool × Bool)) : ∀ {g : Option Nat}, Spaced m g l → GapOk m g l := by
  induction l with
  | nil => intro g _; trivial
  | cons x l ih => intro g h; exact ⟨fun e k hk => (h.1 e k hk).1, h.2.1, ih h.2.2⟩

theorem spaced_append {m : Nat} (a b : List (Bool × Bool)) : ∀ {g : Option Nat},
    Spaced m g (a ++ b) ↔ Spaced m g a ∧ Spaced m (gapAfter g a) b := by
  induction a with
  | nil => intro g; exact ⟨fun h => ⟨trivial, h⟩, fun h => h.2⟩
  | cons x a ih =>
    intro g
    obtain ⟨n, e⟩ := x
    refine ⟨fun h => ?_, fun h => ⟨h.1.1, h.1.2.1, ih.2 ⟨h.1.2.2, h.2⟩⟩⟩
    obtain ⟨h1, h2⟩ := ih.1 h.2.2
    exact ⟨⟨h.1, h.2.1, h1⟩, h2⟩

theorem spaced_noc {m : Nat} (a b : List (Bool × Bool)) (g : Option Nat) :
    Spaced m g (a ++ (false, false) :: b) ↔ Spaced m g (a ++ b) := by
  rw [spaced_append, spaced_append]
  refine ⟨fun h => ⟨h.1, h.2.2.2⟩, fun h => ⟨h.1, ?_, ?_, h.2⟩⟩
  · intro e; cases e
  · intro e; cases e

/-! ## a period as a list of events -/

/-- No edge of the node clock, and the module keeps its outputs. -/
def StillReq (o : ReqOffer) (e : ReqEvent) : Prop := match e with
  | .edge n _ off => n = false ∧ off = o
  | .noc _ => True

def StillRsp (o : RspOffer) (e : RspEvent) : Prop := match e with
  | .edge n _ off => n = false ∧ off = o
  | .noc _ => True

theorem fill_none {α : Type} (o o' : α) (l : List (Bool × Bool)) (h : l.countP (fun x => x.1) = 0) :
    fill o o' l = l.map fun x => (x.1, x.2, o) := by
  induction l with
  | nil => rfl
  | cons x l ih =>
    obtain ⟨n, a⟩ := x
    cases n with
    | true => simp at h
    | false =>
      rw [List.countP_cons] at h
      simp only [fill, List.map_cons]
      rw [ih (by omega)]

theorem fill_one {α : Type} (o o' : α) (l : List (Bool × Bool)) (h : l.countP (fun x => x.1) = 1) :
    ∃ l1 a l2, l = l1 ++ (true, a) :: l2 ∧ (∀ x ∈ l1, x.1 = false) ∧ (∀ x ∈ l2, x.1 = false) ∧
      fill o o' l = l1.map (fun x => (x.1, x.2, o)) ++ (true, a, o') :: l2.map (fun x => (x.1, x.2, o')) := by
  induction l with
  | nil => simp at h
  | cons x l ih =>
    obtain ⟨n, a⟩ := x
    cases n with
    | true =>
      refine ⟨[], a, l, rfl, by simp, ?_, rfl⟩
      rw [List.countP_cons] at h
      have h0 : l.countP (fun x => x.1) = 0 := by simpa using h
      intro x hx
      have := (List.countP_eq_zero.1 h0) x hx
      simpa using this
    | false =>
      rw [List.countP_cons] at h
      obtain ⟨l1, b, l2, h1, h2, h3, h4⟩ := ih (by simpa using h)
      refine ⟨(false, a) :: l1, b, l2, by rw [h1]; rfl, ?_, h3, ?_⟩
      · intro x hx
        cases hx with
        | head => rfl
        | tail _ hx => exact h2 x hx
      · simp only [fill, h4, List.map_cons, List.cons_append]

theorem length_fill {α : Type} (o o' : α) (l : List (Bool × Bool)) : (fill o o' l).length = l.length := by
  induction l with
  | nil => rfl
  | cons x l ih =>
    obtain ⟨n, a⟩ := x
    cases n <;> simp [fill, ih]

theorem fill_flags {α : Type} (o o' : α) (l : List (Bool × Bool)) : (fill o o' l).map (fun x => (x.1, x.2.1)) = l := by
  induction l with
  | nil => rfl
  | cons x l ih =>
    obtain ⟨n, a⟩ := x
    cases n <;> simp [fill, ih, Function.comp_def]

/-- Putting an event into a list. -/
theorem insert_split {ε : Type} (A : List ε) (e : ε) (B : List ε) (k : Nat) (m : ε) :
    (∃ A', (A ++ e :: B).take k ++ m :: (A ++ e :: B).drop k = A' ++ e :: B ∧ A' = A.take k ++ m :: A.drop k ∧ k ≤ A.length) ∨
    (∃ B', (A ++ e :: B).take k ++ m :: (A ++ e :: B).drop k = A ++ e :: B' ∧
      B' = B.take (k - A.length - 1) ++ m :: B.drop (k - A.length - 1) ∧ A.length < k) := by
  by_cases h : k ≤ A.length
  · left
    refine ⟨_, ?_, rfl, h⟩
    rw [List.take_append_of_le_length h, List.drop_append_of_le_length h]
    simp
  · right
    refine ⟨_, ?_, rfl, by omega⟩
    obtain ⟨j, rfl⟩ : ∃ j, k = A.length + (j + 1) := ⟨k - A.length - 1, by omega⟩
    have hj : A.length + (j + 1) - A.length - 1 = j := by omega
    rw [hj, List.take_length_add_append, List.drop_length_add_append]
    simp only [List.take_succ_cons, List.drop_succ_cons, List.append_assoc, List.cons_append]

variable {o o' : ReqOffer} {c : MmCfg}

theorem still_map (l : List (Bool × Bool)) (h : ∀ x ∈ l, x.1 = false) :
    ∀ e ∈ (l.map fun x => (x.1, x.2, o)).map reqEdge, StillReq o e := by
  intro e he
  rw [List.map_map, List.mem_map] at he
  obtain ⟨x, hx, rfl⟩ := he
  exact ⟨h x hx, rfl⟩

theorem still_insert {P : ReqEvent → Prop} (A : List ReqEvent) (k : Nat) (m : ReqEvent) (hm : P m) (h : ∀ e ∈ A, P e) :
    ∀ e ∈ A.take k ++ m :: A.drop k, P e := by
  intro e he
  rcases List.mem_append.1 he with he | he
  · exact h e (List.mem_of_mem_take he)
  · cases he with
    | head => exact hm
    | tail _ he => exact h e (List.mem_of_mem_drop he)

/-- The source side of the requester in a period. -/
def evs (o o' : ReqOffer) (a b : List (Bool × Bool)) (accept : Bool) : List ReqEvent :=
  ((fill o o' (a ++ b)).take a.length).map reqEdge ++ .noc accept :: ((fill o o' (a ++ b)).drop a.length).map reqEdge

theorem evs_still {a b : List (Bool × Bool)} {accept : Bool} (h : (a ++ b).countP (fun x => x.1) = 0) :
    ∀ e ∈ evs o o' a b accept, StillReq o e := by
  unfold evs
  rw [fill_none o o' _ h, List.map_take, List.map_drop]
  refine still_insert _ _ _ trivial (still_map _ ?_)
  intro x hx
  have := (List.countP_eq_zero.1 h) x hx
  simpa using this

theorem evs_one {a b : List (Bool × Bool)} {accept : Bool} (h : (a ++ b).countP (fun x => x.1) = 1) :
    ∃ A e B, evs o o' a b accept = A ++ .edge true e o' :: B ∧ (∀ e ∈ A, StillReq o e) ∧ ∀ e ∈ B, StillReq o' e := by
  obtain ⟨l1, e, l2, h1, h2, h3, h4⟩ := fill_one o o' _ h
  unfold evs
  rw [h4, List.map_take, List.map_drop, List.map_append, List.map_cons]
  rcases insert_split ((l1.map fun x => (x.1, x.2, o)).map reqEdge) (reqEdge (true, e, o'))
    ((l2.map fun x => (x.1, x.2, o')).map reqEdge) a.length (.noc accept) with ⟨A', g1, g2, -⟩ | ⟨B', g1, g2, -⟩
  · refine ⟨A', e, _, g1, ?_, still_map l2 h3⟩
    rw [g2]
    exact still_insert _ _ _ trivial (still_map l1 h2)
  · refine ⟨_, e, B', g1, still_map l1 h2, ?_⟩
    rw [g2]
    exact still_insert _ _ _ trivial (still_map l2 h3)

theorem step_off (c : MmCfg) (s : ReqState) (e : ReqEvent) (o : ReqOffer) (h : StillReq o e) (hs : s.off = o) :
    (reqStep c s e).1.off = o ∧ (reqStep c s e).1.k.reg = s.k.reg ∧ reqHandshakes s e = [] := by
  cases e with
  | noc acc => exact ⟨hs, nocEdge_reg _ _, rfl⟩
  | edge n a off =>
    obtain ⟨rfl, rfl⟩ := h
    rw [reqStep_edge]
    refine ⟨?_, ?_, rfl⟩
    · split <;> rfl
    · have : (reqMid c s false a off).k.reg = s.k.reg := by
        unfold reqMid
        cases a <;> rfl
      split
      · exact this
      · exact this

theorem still_run (c : MmCfg) (es : List ReqEvent) : ∀ s : ReqState, (∀ e ∈ es, StillReq o e) → s.off = o →
    (reqRun c s es).1.off = o ∧ (reqRun c s es).1.k.reg = s.k.reg ∧ (reqRun c s es).2.1 = [] := by
  induction es with
  | nil => intro s _ hs; exact ⟨hs, rfl, rfl⟩
  | cons e es ih =>
    intro s h hs
    obtain ⟨h1, h2, h3⟩ := step_off c s e o (h e (List.mem_cons_self ..)) hs
    obtain ⟨g1, g2, g3⟩ := ih (reqStep c s e).1 (fun x hx => h x (List.mem_cons_of_mem _ hx)) h1
    dsimp only [reqRun]
    exact ⟨g1, g2.trans h2, by rw [h3, g3]; rfl⟩

/-- What a requester sees of the source side in a period with an edge. -/
theorem one_edge {m : Nat} (hc : MmCfgOk c m) {s : ReqState} {gap : Option Nat} {acc : List ReqBeat} {out : List BsFlit}
    (h : ReqInv c s gap acc out) (hw : wOnlyOpen false acc) {A B : List ReqEvent} {e : Bool}
    (hA : ∀ x ∈ A, StillReq o x) (hB : ∀ x ∈ B, StillReq o' x) (hs : s.off = o)
    (hg : Spaced m gap ((A ++ .edge true e o' :: B).map ReqEvent.clocks)) :
    let t := reqRun c s (A ++ .edge true e o' :: B)
    t.1.off = o' ∧ ((t.2.1 = [] ∧ t.1.k.reg = none) ∨
      ∃ b, t.2.1 = [b] ∧ b ∈ ReqOffer.beats o ∧ s.k.reg = none ∧ t.1.k.reg.isSome = true) := by
  intro t
  have ht : t = reqRun c s (A ++ .edge true e o' :: B) := rfl
  rw [reqRun_append] at ht
  obtain ⟨a1, a2, a3⟩ := still_run c A s hA hs
  rw [List.map_append, List.map_cons, spaced_append] at hg
  obtain ⟨g1, g2⟩ := hg
  obtain ⟨i1, -⟩ := req_run hc A h hw g1.gapOk
  generalize reqRun c s A = u at *
  dsimp only [reqRun] at ht
  have hoff : (reqStep c u.1 (.edge true e o')).1.off = o' := by
    rw [reqStep_edge]
    split <;> rfl
  have hreg : (reqStep c u.1 (.edge true e o')).1.k.reg = u.1.nodeEdge.1 := by
    rw [reqStep_edge]
    split <;> rfl
  obtain ⟨b1, b2, b3⟩ := still_run c B _ hB hoff
  rw [ht]
  dsimp only
  refine ⟨b1, ?_⟩
  rw [b2, hreg, a3, b3]
  -- the ready signals agree with `_got_aw`
  obtain ⟨g, r1, r2⟩ := i1.rdy
  have hgap : ∀ k, gapAfter gap (A.map ReqEvent.clocks) = some k → 1 ≤ k ∧ k < m := g2.1 rfl
  have hr : reqReadyFor u.1 u.1.gotAw := by
    rcases r2 with rfl | ⟨r2, -⟩
    · exact r1
    · have := (hgap 0 r2).1
      omega
  have hready := r1.ready
  have hsub := req_handshakes_sub u.1 (.edge true e o')
  rw [a1] at hsub
  have hnone : ∀ x, u.1.nodeEdge.1 = some x → u.1.k.cycle = 0 → s.k.reg = none := by
    intro x _ hcy
    rw [← a2]
    cases hreg' : u.1.k.reg with
    | none => rfl
    | some v =>
      obtain ⟨done, pend, -, -, hp⟩ := i1.pkt
      unfold PktPhase at hp
      rw [hreg'] at hp
      obtain ⟨k, hk, hp⟩ := hp
      obtain ⟨k1, k2⟩ := hgap k hk
      have hsp := hc.span v.type
      have hb := pktSpan_bounds hc v.type
      rcases hp with ⟨hp, -⟩ | ⟨-, -, -, ⟨hp, hq⟩ | ⟨hp, -⟩⟩
      · omega
      · rw [hcy] at hq
        have := congrArg BitVec.toNat hq
        simp at this
        omega
      · omega
  rcases ReqState.nodeEdge_cases hr e o' with ⟨c1, c2⟩ | ⟨c0, a, c1, c2⟩ | ⟨c0, a, c1, c2⟩ | ⟨c0, -, x, c1, c2⟩
  · left
    rw [c1]
    exact ⟨by simpa using c2, rfl⟩
  all_goals
    right
    refine ⟨_, by simpa using c2, hsub _ (by rw [c2]; exact List.mem_singleton.2 rfl), hnone _ (by rw [c1]) c0, by rw [c1]; rfl⟩

/-- The handshakes do not depend on what the module drives after its edge. -/
theorem handshakes_fill (c : MmCfg) (o o' o'' : ReqOffer) (l : List (Bool × Bool)) : ∀ s : ReqState, l.countP (fun x => x.1) ≤ 1 →
    (reqRun c s ((fill o o' l).map reqEdge)).2.1 = (reqRun c s ((fill o o'' l).map reqEdge)).2.1 := by
  induction l with
  | nil => intro s _; rfl
  | cons x l ih =>
    intro s h
    obtain ⟨n, a⟩ := x
    rw [List.countP_cons] at h
    cases n with
    | false =>
      simp only [fill, List.map_cons, reqRun]
      rw [ih _ (by simpa using h)]
    | true =>
      have h0 : l.countP (fun x => x.1) = 0 := by
        have : l.countP (fun x => x.1) + 1 ≤ 1 := by simpa using h
        omega
      have hf : ∀ x ∈ l, x.1 = false := by
        intro x hx
        have := (List.countP_eq_zero.1 h0) x hx
        simpa using this
      simp only [fill, List.map_cons, reqRun]
      have hq : ∀ p : ReqOffer, (reqRun c (reqStep c s (reqEdge (true, a, p))).1
          ((l.map fun x => (x.1, x.2, p)).map reqEdge)).2.1 = [] := by
        intro p
        refine (still_run c _ _ (still_map l hf) ?_).2.2
        unfold reqEdge
        rw [reqStep_edge]
        split <;> rfl
      rw [hq, hq]
      rfl

/-! ## the response side -/

section rsp

variable {o o' : RspOffer} {c : MmCfg}

theorem still_map_rsp (l : List (Bool × Bool)) (h : ∀ x ∈ l, x.1 = false) :
    ∀ e ∈ (l.map fun x => (x.1, x.2, o)).map rspEdge, StillRsp o e := by
  intro e he
  rw [List.map_map, List.mem_map] at he
  obtain ⟨x, hx, rfl⟩ := he
  exact ⟨h x hx, rfl⟩

theorem still_insert_rsp {P : RspEvent → Prop} (A : List RspEvent) (k : Nat) (m : RspEvent) (hm : P m) (h : ∀ e ∈ A, P e) :
    ∀ e ∈ A.take k ++ m :: A.drop k, P e := by
  intro e he
  rcases List.mem_append.1 he with he | he
  · exact h e (List.mem_of_mem_take he)
  · cases he with
    | head => exact hm
    | tail _ he => exact h e (List.mem_of_mem_drop he)

/-- The source side of the responder in a period. -/
def evsRsp (o o' : RspOffer) (a b : List (Bool × Bool)) (accept : Bool) : List RspEvent :=
  ((fill o o' (a ++ b)).take a.length).map rspEdge ++ .noc accept :: ((fill o o' (a ++ b)).drop a.length).map rspEdge

theorem evsRsp_still {a b : List (Bool × Bool)} {accept : Bool} (h : (a ++ b).countP (fun x => x.1) = 0) :
    ∀ e ∈ evsRsp o o' a b accept, StillRsp o e := by
  unfold evsRsp
  rw [fill_none o o' _ h, List.map_take, List.map_drop]
  refine still_insert_rsp _ _ _ trivial (still_map_rsp _ ?_)
  intro x hx
  have := (List.countP_eq_zero.1 h) x hx
  simpa using this

theorem evsRsp_one {a b : List (Bool × Bool)} {accept : Bool} (h : (a ++ b).countP (fun x => x.1) = 1) :
    ∃ A e B, evsRsp o o' a b accept = A ++ .edge true e o' :: B ∧ (∀ e ∈ A, StillRsp o e) ∧ ∀ e ∈ B, StillRsp o' e := by
  obtain ⟨l1, e, l2, h1, h2, h3, h4⟩ := fill_one o o' _ h
  unfold evsRsp
  rw [h4, List.map_take, List.map_drop, List.map_append, List.map_cons]
  rcases insert_split ((l1.map fun x => (x.1, x.2, o)).map rspEdge) (rspEdge (true, e, o'))
    ((l2.map fun x => (x.1, x.2, o')).map rspEdge) a.length (.noc accept) with ⟨A', g1, g2, -⟩ | ⟨B', g1, g2, -⟩
  · refine ⟨A', e, _, g1, ?_, still_map_rsp l2 h3⟩
    rw [g2]
    exact still_insert_rsp _ _ _ trivial (still_map_rsp l1 h2)
  · refine ⟨_, e, B', g1, still_map_rsp l1 h2, ?_⟩
    rw [g2]
    exact still_insert_rsp _ _ _ trivial (still_map_rsp l2 h3)

theorem step_off_rsp (c : MmCfg) (s : RspState) (e : RspEvent) (o : RspOffer) (h : StillRsp o e) (hs : s.off = o) :
    (rspStep c s e).1.off = o ∧ (rspStep c s e).1.k.reg = s.k.reg ∧ rspHandshakes s e = [] := by
  cases e with
  | noc acc => exact ⟨hs, nocEdge_reg _ _, rfl⟩
  | edge n a off =>
    obtain ⟨rfl, rfl⟩ := h
    rw [rspStep_edge]
    refine ⟨?_, ?_, rfl⟩
    · split <;> rfl
    · have : (rspMid c s false a off).k.reg = s.k.reg := by
        unfold rspMid
        cases a <;> rfl
      split
      · exact this
      · exact this

theorem still_run_rsp (c : MmCfg) (es : List RspEvent) : ∀ s : RspState, (∀ e ∈ es, StillRsp o e) → s.off = o →
    (rspRun c s es).1.off = o ∧ (rspRun c s es).1.k.reg = s.k.reg ∧ (rspRun c s es).2.1 = [] := by
  induction es with
  | nil => intro s _ hs; exact ⟨hs, rfl, rfl⟩
  | cons e es ih =>
    intro s h hs
    obtain ⟨h1, h2, h3⟩ := step_off_rsp c s e o (h e (List.mem_cons_self ..)) hs
    obtain ⟨g1, g2, g3⟩ := ih (rspStep c s e).1 (fun x hx => h x (List.mem_cons_of_mem _ hx)) h1
    dsimp only [rspRun]
    exact ⟨g1, g2.trans h2, by rw [h3, g3]; rfl⟩

/-- What a responder sees of the source side in a period with an edge. -/
theorem one_edge_rsp {m : Nat} (hc : MmCfgOk c m) {s : RspState} {gap : Option Nat} {acc : List RspBeat} {out : List BsFlit}
    (hr : rspReadyFor s) (h : PktInv c s.k gap (acc.map rspTxn) out) {A B : List RspEvent} {e : Bool}
    (hA : ∀ x ∈ A, StillRsp o x) (hB : ∀ x ∈ B, StillRsp o' x) (hs : s.off = o)
    (hg : Spaced m gap ((A ++ .edge true e o' :: B).map RspEvent.clocks)) :
    let t := rspRun c s (A ++ .edge true e o' :: B)
    t.1.off = o' ∧ ((t.2.1 = [] ∧ t.1.k.reg = none) ∨
      ∃ b, t.2.1 = [b] ∧ b ∈ RspOffer.beats o ∧ s.k.reg = none ∧ t.1.k.reg.isSome = true) := by
  intro t
  have ht : t = rspRun c s (A ++ .edge true e o' :: B) := rfl
  rw [rspRun_append] at ht
  obtain ⟨a1, a2, a3⟩ := still_run_rsp c A s hA hs
  rw [List.map_append, List.map_cons, spaced_append] at hg
  obtain ⟨g1, g2⟩ := hg
  obtain ⟨i1, i2⟩ := rsp_run hc A hr h g1.gapOk
  generalize rspRun c s A = u at *
  dsimp only [rspRun] at ht
  have hoff : (rspStep c u.1 (.edge true e o')).1.off = o' := by
    rw [rspStep_edge]
    split <;> rfl
  have hreg : (rspStep c u.1 (.edge true e o')).1.k.reg = u.1.nodeEdge.1 := by
    rw [rspStep_edge]
    split <;> rfl
  obtain ⟨b1, b2, b3⟩ := still_run_rsp c B _ hB hoff
  rw [ht]
  dsimp only
  refine ⟨b1, ?_⟩
  rw [b2, hreg, a3, b3]
  have hgap : ∀ k, gapAfter gap (A.map RspEvent.clocks) = some k → 1 ≤ k ∧ k < m := g2.1 rfl
  have hsub := rsp_handshakes_sub u.1 (.edge true e o')
  rw [a1] at hsub
  have hnone : u.1.k.cycle = 0 → s.k.reg = none := by
    intro hcy
    rw [← a2]
    cases hreg' : u.1.k.reg with
    | none => rfl
    | some v =>
      obtain ⟨done, pend, -, -, hp⟩ := i2
      unfold PktPhase at hp
      rw [hreg'] at hp
      obtain ⟨k, hk, hp⟩ := hp
      obtain ⟨k1, k2⟩ := hgap k hk
      have hsp := hc.span v.type
      have hb := pktSpan_bounds hc v.type
      rcases hp with ⟨hp, -⟩ | ⟨-, -, -, ⟨hp, hq⟩ | ⟨hp, -⟩⟩
      · omega
      · rw [hcy] at hq
        have := congrArg BitVec.toNat hq
        simp at this
        omega
      · omega
  obtain ⟨c1, c2⟩ := RspState.nodeEdge_cases i1.ready e o'
  cases hn : u.1.nodeEdge.1 with
  | none =>
    left
    rw [hn] at c1
    have : rspHandshakes u.1 (.edge true e o') = [] := by simpa using c1.symm
    exact ⟨by simpa using this, rfl⟩
  | some v =>
    right
    rw [hn] at c1 c2
    have hl : (rspHandshakes u.1 (.edge true e o')).length = 1 := by
      rw [← List.length_map (f := rspTxn), ← c1]
      rfl
    obtain ⟨b, hb⟩ := List.length_eq_one_iff.1 hl
    exact ⟨b, by simpa using hb, hsub _ (by rw [hb]; exact List.mem_singleton.2 rfl), hnone (c2 rfl), rfl⟩

/-- The handshakes do not depend on what the module drives after its edge. -/
theorem handshakes_fill_rsp (c : MmCfg) (o o' o'' : RspOffer) (l : List (Bool × Bool)) : ∀ s : RspState,
    l.countP (fun x => x.1) ≤ 1 →
    (rspRun c s ((fill o o' l).map rspEdge)).2.1 = (rspRun c s ((fill o o'' l).map rspEdge)).2.1 := by
  induction l with
  | nil => intro s _; rfl
  | cons x l ih =>
    intro s h
    obtain ⟨n, a⟩ := x
    rw [List.countP_cons] at h
    cases n with
    | false =>
      simp only [fill, List.map_cons, rspRun]
      rw [ih _ (by simpa using h)]
    | true =>
      have h0 : l.countP (fun x => x.1) = 0 := by
        have : l.countP (fun x => x.1) + 1 ≤ 1 := by simpa using h
        omega
      have hf : ∀ x ∈ l, x.1 = false := by
        intro x hx
        have := (List.countP_eq_zero.1 h0) x hx
        simpa using this
      simp only [fill, List.map_cons, rspRun]
      have hq : ∀ p : RspOffer, (rspRun c (rspStep c s (rspEdge (true, a, p))).1
          ((l.map fun x => (x.1, x.2, p)).map rspEdge)).2.1 = [] := by
        intro p
        refine (still_run_rsp c _ _ (still_map_rsp l hf) ?_).2.2
        unfold rspEdge
        rw [rspStep_edge]
        split <;> rfl
      rw [hq, hq]
      rfl

end rsp

end RadSim.Hello
