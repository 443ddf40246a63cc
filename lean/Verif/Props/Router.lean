import Verif.Lemmas.RouterLive

/-! # Properties of the input-queued router

`VA` and `SA` are the classes of the two allocators, which are only assumed to make valid assignments (C44) and, for
progress, to grant something when there are requests (C68). The routing function is any function that offers existing
outputs. -/

namespace RadSim.Alloc

variable {σ ρ : Type} {C : Cls σ ρ} {I O : Nat} {s : σ} {P Q : List Ask → Match → Prop}

theorem Holds.mono (h : Holds C I O s P) (hpq : ∀ l m, P l m → Q l m) : Holds C I O s Q := by
  intro hist ha
  obtain ⟨s', ms, h1, h2⟩ := h hist ha
  exact ⟨s', ms, h1, h2.imp fun _ _ => hpq _ _⟩

theorem Holds.and (hp : Holds C I O s P) (hq : Holds C I O s Q) : Holds C I O s fun l m => P l m ∧ Q l m := by
  intro hist ha
  obtain ⟨s', ms, h1, h2⟩ := hp hist ha
  obtain ⟨s'', ms', h1', h2'⟩ := hq hist ha
  rw [h1] at h1'
  cases h1'
  refine ⟨s', ms, h1, ?_⟩
  clear h1 ha
  induction h2 with
  | nil => exact .nil
  | cons h _ ih =>
    cases h2' with
    | cons h' t' => exact .cons ⟨h, h'⟩ (ih t')

end RadSim.Alloc

namespace RadSim.Router

open Alloc (Holds Valid asked islip Islip)

variable {δ σ τ ρ ρ' : Type} {VA : Alloc.Cls σ ρ} {SA : Alloc.Cls τ ρ'} {c : Cfg} {va : σ} {sa : τ}
  {ins : List (In δ ρ ρ')} {outs : List (Out δ)} {s : R δ σ τ}

theorem serves_false (h : Holds VA (c.inputs * c.vcs) (c.outputs * c.vcs) va fun l m => Valid (asked l) m) :
    Serves false VA (c.inputs * c.vcs) (c.outputs * c.vcs) va :=
  h.mono fun _ _ h => ⟨h, by simp⟩

theorem serves_false' {I O : Nat} (h : Holds SA I O sa fun l m => Valid (asked l) m) : Serves false SA I O sa :=
  h.mono fun _ _ h => ⟨h, by simp⟩

theorem serves_true {σ ρ : Type} {C : Alloc.Cls σ ρ} {a : σ} {I O : Nat} (h : Holds C I O a fun l m => Valid (asked l) m)
    (h' : Holds C I O a fun l m => l ≠ [] → m.Some) : Serves true C I O a :=
  (h.and h').mono fun _ _ h => ⟨h.1, fun _ => h.2⟩

/-- C71. As long as its neighbours respect its credits and send whole packets, a router never stops the program: no
assertion fails, no buffer overflows, no packet ID is unexpected, no credit is in excess. -/
theorem C71_router_never_fails (hc : c.Ok)
    (hva : Holds VA (c.inputs * c.vcs) (c.outputs * c.vcs) va fun l m => Valid (asked l) m)
    (hsa : Holds SA c.inputs c.outputs sa fun l m => Valid (asked l) m)
    (h : Run VA SA c va sa ins outs s) {e : In δ ρ ρ'} (ha : Admits c ins outs e) :
    ∃ s' out, tick VA SA c e s = .ok (s', out) := by
  obtain ⟨l, hl⟩ := run_inv hc (serves_false hva) (serves_false' hsa) h
  obtain ⟨s', out, L, e1, _⟩ := tick_ok hc hl ha
  exact ⟨s', out, e1⟩

/-- C72. A router passes every flit that comes in on once, in order, to an output virtual channel that the routing
function has offered for its packet; the flits of a packet stay together; one credit is returned per flit. -/
theorem C72_router_transfers (hc : c.Ok)
    (hva : Holds VA (c.inputs * c.vcs) (c.outputs * c.vcs) va fun l m => Valid (asked l) m)
    (hsa : Holds SA c.inputs c.outputs sa fun l m => Valid (asked l) m)
    (h : Run VA SA c va sa ins outs s) : ∃ l, Explains ins outs l := by
  obtain ⟨l, hl⟩ := run_inv hc (serves_false hva) (serves_false' hsa) h
  exact ⟨l, explains_of hl⟩

/-- C73. What a router sends is what its neighbours rely on: flits on existing outputs and virtual channels, never more
than the credits allow, and whole packets with one packet ID each on every virtual channel. -/
theorem C73_router_respects_credits (hc : c.Ok)
    (hva : Holds VA (c.inputs * c.vcs) (c.outputs * c.vcs) va fun l m => Valid (asked l) m)
    (hsa : Holds SA c.inputs c.outputs sa fun l m => Valid (asked l) m)
    (h : Run VA SA c va sa ins outs s) :
    (∀ o, ∀ f ∈ sent outs o, o < c.outputs ∧ f.vc < c.vcs) ∧
    (∀ o u, (sentOn outs o u : Int) ≤ c.buf.perVc + granted ins o u) ∧
    ∀ o u, Packets Flit.head Flit.tail Flit.pid ((sent outs o).filter fun f => f.vc = u) := by
  obtain ⟨l, hl⟩ := run_inv hc (serves_false hva) (serves_false' hsa) h
  have hpre : ∀ o, sent outs o <+: (l.filter fun e => e.o = o).map Pass.flit := (explains_of hl).to_output
  have hto : ∀ o u, ((l.filter fun e => e.o = o).map Pass.flit).filter (fun f => f.vc = u) = (passedTo l o u).map Pass.flit := by
    intro o u
    unfold passedTo
    rw [List.filter_map, List.filter_filter]
    congr 2
    funext e
    by_cases h4 : e.o = o <;> by_cases h5 : e.u = u <;> simp [h4, h5, Pass.flit]
  have hle : ∀ o u, (sent outs o).filter (fun f => f.vc = u) <+: (passedTo l o u).map Pass.flit := by
    intro o u
    rw [← hto]
    exact (hpre o).filter _
  refine ⟨?_, ?_, ?_⟩
  · intro o f hf
    have hm := (hpre o).subset hf
    obtain ⟨p, hp, rfl⟩ := List.mem_map.1 hm
    simp only [List.mem_filter, decide_eq_true_eq] at hp
    have := hl.inv.port.logOk p hp.1
    rw [hp.2] at this
    exact ⟨this.2.1, this.2.2⟩
  · intro o u
    have h1 := (hle o u).length_le
    rw [List.length_map] at h1
    unfold sentOn
    have hp := hc.buf.perVc_pos
    by_cases hu : u < c.vcs
    · have h2 := (hl.inv.out o u).occ
      have h3 := ((hl.inv.port.buf o).bound u hu).2
      change _ + ((granted ins o u : Nat) : Int) = ((passedTo l o u).length : Int) + _ at h2
      omega
    · have : passedTo l o u = [] := by
        simp only [passedTo, List.filter_eq_nil_iff, decide_eq_true_eq]
        rintro e he ⟨_, h6⟩
        have := (hl.inv.port.logOk e he).2.2
        rw [h6] at this
        exact hu this
      rw [this] at h1
      simp only [List.length_nil] at h1
      omega
  · intro o u
    have h1 := (hl.inv.out o u).toPk
    obtain ⟨t, ht⟩ := hle o u
    refine packets_prefix (r := t) ?_
    rw [ht]
    refine ⟨?_, ?_⟩
    · intro a ha
      rw [List.head?_map] at ha
      cases hh : (passedTo l o u).head? with
      | none => rw [hh] at ha; cases ha
      | some p =>
        rw [hh] at ha
        cases ha
        exact h1.1 p hh
    · rw [List.isChain_map]
      exact h1.2.imp fun a b hab => ⟨hab.1, fun ht => (Prod.ext_iff.1 (hab.2 ht)).2⟩

/-- C74. The credits a router returns are what its neighbours rely on: for existing inputs and virtual channels, none of
them twice in a credit, and never more than flits have come in. -/
theorem C74_router_credits (hc : c.Ok)
    (hva : Holds VA (c.inputs * c.vcs) (c.outputs * c.vcs) va fun l m => Valid (asked l) m)
    (hsa : Holds SA c.inputs c.outputs sa fun l m => Valid (asked l) m)
    (h : Run VA SA c va sa ins outs s) :
    (∀ x ∈ outs, ∀ i r, x.credit i = some r → i < c.inputs ∧ r ≠ [] ∧ r.Nodup ∧ ∀ v ∈ r, v < c.vcs) ∧
    ∀ i v, returned outs i v ≤ (received ins i v).length := by
  refine ⟨?_, ?_⟩
  · induction h with
    | start => intro x hx; cases hx
    | step h ha ht ih =>
      intro x hx
      rcases List.mem_append.1 hx with hx | hx
      · exact ih x hx
      · obtain ⟨l, hl⟩ := run_inv hc (serves_false hva) (serves_false' hsa) h
        obtain ⟨s', out, L, e1, _, _, _, _, _, _, _, hcr⟩ := tick_ok hc hl ha
        rw [ht] at e1
        cases e1
        rw [List.mem_singleton.1 hx]
        exact hcr
  · intro i v
    obtain ⟨l, hl⟩ := C72_router_transfers hc hva hsa h
    have := (hl.from_input i v).length_le
    rw [List.length_map, ← hl.credited] at this
    exact this

/-- C75. A router drains: when no more flits come in, the packets inside are complete and flits that have left are
credited within `D` ticks, everything has left after at most `6 (D + K + 1)` ticks for every flit inside. -/
theorem C75_router_drains (hc : c.Ok) (ho : c.outSize ≠ 0)
    (hva : Holds VA (c.inputs * c.vcs) (c.outputs * c.vcs) va fun l m => Valid (asked l) m)
    (hva' : Holds VA (c.inputs * c.vcs) (c.outputs * c.vcs) va fun l m => l ≠ [] → m.Some)
    (hsa : Holds SA c.inputs c.outputs sa fun l m => Valid (asked l) m)
    (hsa' : Holds SA c.inputs c.outputs sa fun l m => l ≠ [] → m.Some)
    {N n₀ D K : Nat} {e : Nat → In δ ρ ρ'} {out : Nat → Out δ} {s : Nat → R δ σ τ} (h : Ticks VA SA c va sa N e out s)
    (hd : Drains c N n₀ D K e out) (hN : n₀ + 6 * inside c (upto e n₀) (upto out n₀) * (D + K + 1) ≤ N) :
    ∃ l, Delivered (upto e N) (upto out N) l :=
  drain hc ho (serves_true hva hva') (serves_true hsa hsa') h hd hN

/-! ## An example

A router with two inputs, two outputs, two virtual channels and iSLIP allocators. A packet of two flits comes in at
input 0 on channel 1, a packet of one flit at input 1 on channel 0, and both are to leave through channel 0 of output 1. -/

namespace Example

def cfg : Cfg := ⟨2, 2, ⟨2, -1, 2, false⟩, -1, 1, 1, 1, 1, 1⟩

theorem cfg_ok : cfg.Ok :=
  ⟨⟨by decide, by decide, by decide⟩, rfl, .inl rfl, rfl, rfl, rfl, rfl⟩

def a0 : Flit String := ⟨1, true, false, 7, 0, "a0"⟩
def a1 : Flit String := ⟨1, false, true, 7, 0, "a1"⟩
def b0 : Flit String := ⟨0, true, true, 8, 0, "b0"⟩

def env (n : Nat) : In String Unit Unit where
  now := 1000 * n
  flit := fun i =>
    if n = 0 ∧ i = 0 then some a0 else if n = 1 ∧ i = 0 then some a1 else if n = 0 ∧ i = 1 then some b0 else none
  credit := fun o => if (n = 4 ∨ n = 5 ∨ n = 8) ∧ o = 1 then some [0] else none
  rf := fun _ _ => [⟨1, 0, 0, 0⟩]
  rva := ()
  rsa := ()

def st : Nat → R String Islip Islip × Out String
  | 0 => (.init (Islip.init 4 4 1) (Islip.init 2 2 1), ⟨fun _ => none, fun _ => none⟩)
  | n + 1 => match tick islip islip cfg (env n) (st n).1 with
    | .ok y => y
    | .error _ => ((st n).1, ⟨fun _ => none, fun _ => none⟩)

def out (n : Nat) : Out String := (st (n + 1)).2

/-- The packets leave one after the other. -/
theorem seen : ((List.range 10).map fun n => ((List.range 2).map (out n).flit, (List.range 2).map (out n).credit)) =
    [([none, none], [none, none]), ([none, none], [none, none]), ([none, none], [some [1], none]),
     ([none, some ⟨0, true, false, 7, 1, "a0"⟩], [some [1], none]),
     ([none, some ⟨0, false, true, 7, 1, "a1"⟩], [none, none]), ([none, none], [none, some [0]]),
     ([none, some ⟨0, true, true, 8, 1, "b0"⟩], [none, none]), ([none, none], [none, none]),
     ([none, none], [none, none]), ([none, none], [none, none])] := by decide +kernel

theorem rec (n i v : Nat) : received (upto env n) i v =
    if i = 0 ∧ v = 1 then [a0, a1].take n else if i = 1 ∧ v = 0 then [b0].take n else [] := by
  induction n with
  | zero => simp [received, upto]
  | succ n ih =>
    rw [upto_succ, received_snoc, ih]
    rcases n with _ | _ | n
    · by_cases h1 : i = 0 <;> by_cases h2 : i = 1 <;> by_cases h3 : v = 0 <;> by_cases h4 : v = 1 <;>
        simp_all [env, a0, b0, Option.filter, Ne.symm]
    · by_cases h1 : i = 0 <;> by_cases h2 : i = 1 <;> by_cases h3 : v = 0 <;> by_cases h4 : v = 1 <;>
        simp_all [env, a0, a1, b0, Option.filter, Ne.symm]
    · simp [env]

theorem gra (n : Nat) : ∀ o u, granted (upto env n) o u =
    if o = 1 ∧ u = 0 then (if n ≤ 4 then 0 else if n ≤ 5 then 1 else if n ≤ 8 then 2 else 3) else 0 := by
  induction n with
  | zero => intro o u; simp [granted, upto]
  | succ n ih =>
    intro o u
    rw [upto_succ, granted_snoc, ih]
    by_cases h1 : o = 1 <;> by_cases h2 : u = 0 <;> by_cases h3 : n = 4 ∨ n = 5 ∨ n = 8 <;>
      simp [env, h1, h2, h3, Ne.symm] <;> (repeat' split) <;> omega

theorem sent_mono (n m : Nat) (h : n ≤ m) (o u : Nat) : sentOn (upto out n) o u ≤ sentOn (upto out m) o u := by
  obtain ⟨d, rfl⟩ := Nat.exists_eq_add_of_le h
  induction d with
  | zero => exact Nat.le_refl _
  | succ d ih =>
    refine Nat.le_trans (ih (by omega)) ?_
    rw [show n + (d + 1) = n + d + 1 by omega, upto_succ]
    unfold sentOn
    rw [sent_snoc, List.filter_append, List.length_append]
    omega

theorem sends : ∀ n ≤ 10, sentOn (upto out n) 1 0 = if n ≤ 3 then 0 else if n ≤ 4 then 1 else if n ≤ 6 then 2 else 3 := by
  have : ∀ n ∈ List.range 11, sentOn (upto out n) 1 0 = if n ≤ 3 then 0 else if n ≤ 4 then 1 else if n ≤ 6 then 2 else 3 := by
    decide +kernel
  intro n hn
  exact this n (by simp; omega)

theorem admits (n : Nat) : Admits cfg (upto env n) (upto out n) (env n) where
  port := by
    intro i f hf
    simp only [env] at hf
    split at hf
    · cases hf; rename_i h; rw [h.2]; decide
    · split at hf
      · cases hf; rename_i h; rw [h.2]; decide
      · split at hf
        · cases hf; rename_i h; rw [h.2]; decide
        · cases hf
  packets := by
    intro i v
    rw [← upto_succ, rec]
    split
    · rcases n with _ | _ | n <;> simp [Packets, Next, a0, a1]
    · split
      · rcases n with _ | _ | n <;> simp [Packets, b0]
      · exact packets_nil
  space := by
    intro i v
    rw [← upto_succ, rec]
    change _ ≤ (2 : Int) + _
    split
    · rcases n with _ | _ | n <;> simp <;> omega
    · split
      · simp; omega
      · simp; omega
  credit := by
    intro o l h
    simp only [env] at h
    split at h
    · cases h; rename_i h; rw [h.2]; decide
    · cases h
  credits := by
    intro o u
    rw [← upto_succ, gra]
    split
    · rename_i h
      obtain ⟨rfl, rfl⟩ := h
      change _ ≤ sentOn (upto out n) 1 0
      by_cases hn : n ≤ 8
      · rw [sends n (by omega)]
        repeat' split
        all_goals omega
      · have h1 := sent_mono 8 n (by omega) 1 0
        rw [sends 8 (by omega)] at h1
        simp at h1
        repeat' split
        all_goals omega
    · exact Nat.zero_le _
  offers := by
    intro i f p hp
    simp only [env, List.mem_singleton] at hp
    subst hp
    decide
  once := by
    intro i f
    simp only [env]
    decide
  time := by simp only [env]; omega

theorem va_ok : Holds islip (cfg.inputs * cfg.vcs) (cfg.outputs * cfg.vcs) (Islip.init 4 4 1) fun l m => Valid (asked l) m :=
  Alloc.C44_islip 4 4 1

theorem sa_ok : Holds islip cfg.inputs cfg.outputs (Islip.init 2 2 1) fun l m => Valid (asked l) m :=
  Alloc.C44_islip 2 2 1

/-- The run meets the hypotheses of C71 to C74. -/
theorem run (n : Nat) : Run islip islip cfg (Islip.init 4 4 1) (Islip.init 2 2 1) (upto env n) (upto out n) (st n).1 := by
  induction n with
  | zero => exact .start
  | succ n ih =>
    obtain ⟨s', o', h⟩ := C71_router_never_fails cfg_ok va_ok sa_ok ih (admits n)
    rw [upto_succ, upto_succ]
    refine .step ih (admits n) ?_
    have h1 : st (n + 1) = (s', o') := by
      rw [st]; rw [h]
    unfold out
    rw [h, h1]

theorem ticks (N : Nat) :
    Ticks islip islip cfg (Islip.init 4 4 1) (Islip.init 2 2 1) N env out fun n => (st n).1 where
  start := rfl
  admits n _ := admits n
  step n _ := by
    obtain ⟨s', o', h⟩ := C71_router_never_fails cfg_ok va_ok sa_ok (run n) (admits n)
    have h1 : st (n + 1) = (s', o') := by
      rw [st]; rw [h]
    unfold out
    simp only [h, h1]

/-- Nothing happens any more after tick 10. -/
theorem silent (n : Nat) (h : 10 ≤ n) : (st n).1.active = false ∧ ∀ o, (out n).flit o = none := by
  have key : ∀ n, 10 ≤ n → (st n).1.active = false → st (n + 1) = send cfg (st n).1 := by
    intro n hn h0
    rw [st]
    have h1 : arrivals cfg (env n) = [] := by
      simp only [arrivals, List.filterMap_eq_nil_iff, env]
      intro i _
      rw [if_neg (by omega), if_neg (by omega), if_neg (by omega)]
      rfl
    have h2 : creditArrivals cfg (env n) = [] := by
      simp only [creditArrivals, List.filterMap_eq_nil_iff, env]
      intro i _
      rw [if_neg (by omega)]
      rfl
    simp only [tick, h0, h1, h2, List.append_nil, List.isEmpty_nil, Bool.not_true, Bool.or_false]
    rw [if_neg (by decide), ← h0]
  have hact : ∀ d, (st (10 + d)).1.active = false := by
    intro d
    induction d with
    | zero => decide +kernel
    | succ d ih =>
      rw [show 10 + (d + 1) = 10 + d + 1 by omega, key _ (by omega) ih]
      exact ih
  obtain ⟨d, rfl⟩ := Nat.exists_eq_add_of_le h
  refine ⟨hact d, ?_⟩
  intro o
  obtain ⟨l, hl⟩ := run_inv cfg_ok (serves_false va_ok) (serves_false' sa_ok) (run (10 + d))
  unfold out
  rw [key _ h (hact d)]
  simp [send, hl.ob]

/-- C71 to C74 for this run. -/
example (n : Nat) : (∃ s' o', tick islip islip cfg (env n) (st n).1 = .ok (s', o')) ∧
    (∃ l, Explains (upto env n) (upto out n) l) ∧ (sentOn (upto out n) 1 0 : Int) ≤ 2 + granted (upto env n) 1 0 ∧
    returned (upto out n) 0 1 ≤ (received (upto env n) 0 1).length :=
  ⟨C71_router_never_fails cfg_ok va_ok sa_ok (run n) (admits n), C72_router_transfers cfg_ok va_ok sa_ok (run n),
    (C73_router_respects_credits cfg_ok va_ok sa_ok (run n)).2.1 1 0, (C74_router_credits cfg_ok va_ok sa_ok (run n)).2 0 1⟩

/-- The hypotheses of C75: three flits are inside after tick 1, and at tick 74 they are all gone. -/
theorem drains : Drains cfg 74 2 2 1 env out := by
  refine ⟨?_, ?_, ?_, ?_, ?_, ?_⟩
  · intro n hn _ i
    simp only [env]
    rw [if_neg (by omega), if_neg (by omega), if_neg (by omega)]
  · intro i v f hf
    rw [rec] at hf
    split at hf
    · cases hf; rfl
    · split at hf
      · cases hf; rfl
      · cases hf
  · intro n hn _ o u
    rw [gra]
    by_cases hou : o = 1 ∧ u = 0
    · obtain ⟨rfl, rfl⟩ := hou
      rw [if_pos ⟨rfl, rfl⟩]
      have hs : ∀ d, sentOn (upto out (10 + d)) 1 0 = 3 := by
        intro d
        induction d with
        | zero => rw [sends 10 (by omega)]; rfl
        | succ d ih =>
          rw [show 10 + (d + 1) = 10 + d + 1 by omega, upto_succ]
          unfold sentOn at ih ⊢
          rw [sent_snoc, (silent (10 + d) (by omega)).2]
          simpa using ih
      by_cases h10 : n ≤ 10
      · rw [sends n h10]
        repeat' split
        all_goals omega
      · obtain ⟨d, rfl⟩ := Nat.exists_eq_add_of_le (show 10 ≤ n by omega)
        rw [hs d, if_neg (by omega), if_neg (by omega), if_neg (by omega)]
    · rw [if_neg hou]
      have h1 : ∀ x ∈ List.range 11, ∀ y ∈ List.range 2, ∀ z ∈ List.range 2, y = 1 ∧ z = 0 ∨ sentOn (upto out x) y z = 0 := by
        decide +kernel
      have h2 : ∀ m ≤ 10, sentOn (upto out m) o u = 0 := by
        intro m hm
        by_cases hr : o < 2 ∧ u < 2
        · rcases h1 m (by simp; omega) o (by simpa using hr.1) u (by simpa using hr.2) with h | h
          · exact absurd h hou
          · exact h
        · unfold sentOn
          rw [List.length_eq_zero_iff, List.filter_eq_nil_iff]
          intro f hf
          have := (C73_router_respects_credits cfg_ok va_ok sa_ok (run m)).1 o f hf
          simp only [decide_eq_true_eq]
          rintro rfl
          exact hr this
      have h3 : ∀ d, sentOn (upto out (10 + d)) o u = 0 := by
        intro d
        induction d with
        | zero => exact h2 10 (by omega)
        | succ d ih =>
          rw [show 10 + (d + 1) = 10 + d + 1 by omega, upto_succ]
          unfold sentOn at ih ⊢
          rw [sent_snoc, (silent (10 + d) (by omega)).2]
          simpa using ih
      by_cases h10 : n ≤ 10
      · rw [h2 n h10]
      · obtain ⟨d, rfl⟩ := Nat.exists_eq_add_of_le (show 10 ≤ n by omega)
        rw [h3 d]
  · intro m n hmn _
    simp only [env]
    change _ + (1 : Int) ≤ _
    omega
  · intro n _ o
    simp only [env]
    split <;> simp
  · intro n _ i f
    simp [env]

example : ∃ l, Delivered (upto env 74) (upto out 74) l :=
  C75_router_drains cfg_ok (by decide) va_ok ((Alloc.C68_islip 4 4 1 (by decide)).mono fun _ _ h => h.1) sa_ok
    ((Alloc.C68_islip 2 2 1 (by decide)).mono fun _ _ h => h.1) (ticks 74) drains (by decide +kernel)

end Example

end RadSim.Router
