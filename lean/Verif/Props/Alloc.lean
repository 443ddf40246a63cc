import Verif.Lemmas.AllocWf
import Verif.Lemmas.AllocSep
import Verif.Props.Arbiter

/-!
# Properties of the allocators

C44: assignments are valid matchings of requests. C45: wavefront assignments are maximal and respect
priorities. C68: an allocator with requests grants one of them, and with enough iterations no free pair of
ports with a request is left.

A history is a list of cycles, each with its arrivals, whether `Allocate` is called without arrivals, and the
random numbers drawn.
-/

namespace RadSim.Alloc

/-- The assignments of a history that starts from `s`. -/
def Holds {σ ρ : Type} (C : Cls σ ρ) (I O : Nat) (s : σ) (P : List Ask → Match → Prop) : Prop :=
  ∀ hist : List (List Ask × Bool × ρ), (∀ x ∈ hist, Asks I O x.1) →
    ∃ s' ms, rounds C s hist = some (s', ms) ∧ List.Forall₂ (fun x m => P x.1 m) hist ms

theorem Good.holds {σ ρ : Type} {C : Cls σ ρ} {I O : Nat} {idle : σ → Prop} {ready : List Ask → σ → Prop}
    {P Q : List Ask → Match → Prop} (G : Good C I O idle ready P) {s : σ} (h : idle s)
    (hw : ∀ l m, Asks I O l → P l m → Q l m) : Holds C I O s Q := by
  intro hist ha
  obtain ⟨s', ms, h1, _, h2⟩ := G.rounds h ha
  refine ⟨s', ms, h1, ?_⟩
  clear h1
  induction h2 with
  | nil => exact .nil
  | @cons x m hist ms hp _ ih =>
    exact .cons (hw x.1 m (ha x (by simp)) hp) (ih fun y hy => ha y (by simp [hy]))

/-- The outputs assigned to the first `I` inputs and the inputs assigned to the first `O` outputs. -/
def views (I O : Nat) (m : Match) : List (Option Nat) × List (Option Nat) :=
  ((List.range I).map m.inm, (List.range O).map m.outm)

/-- The assignments of a history, as lists. -/
def outcome {σ ρ : Type} (C : Cls σ ρ) (I O : Nat) (s : σ) (hist : List (List Ask × Bool × ρ)) :
    Option (List (List (Option Nat) × List (Option Nat))) :=
  (rounds C s hist).map fun x => x.2.map (views I O)

/-- C44. iSLIP with any number of iterations. -/
theorem C44_islip (I O iters : Nat) :
    Holds islip I O (Islip.init I O iters) fun l m => Valid (asked l) m :=
  (islip_good I O iters).holds ⟨BIdle.init I O, rfl⟩ fun _ _ _ h => by
    rcases h with h | ⟨_, rfl⟩
    · exact h.valid
    · exact valid_empty _

/-- Three inputs compete for two outputs in two cycles; the pointers move on. -/
example : Asks 3 2 [⟨0, 0, ⟨0, 0, 0⟩⟩, ⟨0, 1, ⟨0, 0, 0⟩⟩, ⟨1, 0, ⟨0, 0, 0⟩⟩, ⟨2, 0, ⟨0, 0, 0⟩⟩] ∧
    outcome islip 3 2 (Islip.init 3 2 1)
      [([⟨0, 0, ⟨0, 0, 0⟩⟩, ⟨0, 1, ⟨0, 0, 0⟩⟩, ⟨1, 0, ⟨0, 0, 0⟩⟩, ⟨2, 0, ⟨0, 0, 0⟩⟩], true, ()),
       ([⟨0, 0, ⟨0, 0, 0⟩⟩, ⟨0, 1, ⟨0, 0, 0⟩⟩, ⟨1, 0, ⟨0, 0, 0⟩⟩, ⟨2, 0, ⟨0, 0, 0⟩⟩], true, ())]
      = some [([some 0, none, none], [some 0, none]), ([some 1, some 0, none], [some 1, some 0])] := by
  refine ⟨by simp [Asks], by decide +kernel⟩

/-- C44. PIM with any number of iterations and any random numbers. -/
theorem C44_pim (I O iters : Nat) :
    Holds (pim iters) I O (Base.init I O) fun l m => Valid (asked l) m :=
  (pim_good I O iters).holds (BIdle.init I O) fun _ _ _ h => by
    rcases h with h | ⟨_, rfl⟩
    · exact h.valid
    · exact valid_empty _

/-- Both outputs pick input 1, which takes output 1; input 0 gets output 0 in the second iteration. -/
example : outcome (pim 2) 2 2 (Base.init 2 2)
      [([⟨0, 0, ⟨0, 0, 0⟩⟩, ⟨1, 0, ⟨0, 0, 0⟩⟩, ⟨1, 1, ⟨0, 0, 0⟩⟩], true, fun _ => (fun _ => 1, fun _ => 1))]
      = some [([some 0, some 1], [some 0, some 1])] := by decide +kernel

/-- C44. The lonely-output allocator. -/
theorem C44_lonely_output (I O : Nat) (rptr gptr : Nat → Nat) :
    Holds loa I O ⟨Base.init I O, rptr, gptr⟩ fun l m => Valid (asked l) m :=
  (loa_good I O).holds (BIdle.init I O) fun _ _ _ h => h.1

/-- Input 0 takes the output nobody else requests. -/
example : outcome loa 2 2 ⟨Base.init 2 2, fun _ => 0, fun _ => 0⟩
      [([⟨0, 0, ⟨0, 0, 0⟩⟩, ⟨0, 1, ⟨0, 0, 0⟩⟩, ⟨1, 0, ⟨0, 0, 0⟩⟩], true, ())]
      = some [([some 1, some 0], [some 1, some 0])] := by decide +kernel

/-- C44. The select allocator with one iteration. Missing: more iterations, where the claim is false. -/
theorem C44_select_partial (I O : Nat) :
    Holds sel I O (Sel.init I O 1) fun l m => Valid (asked l) m :=
  (sel_good I O).holds ⟨BIdle.init I O, rfl, fun _ => rfl⟩ fun _ _ _ h => h.1

/-- The more urgent request for output 0 wins. -/
example : outcome sel 2 2 (Sel.init 2 2 1)
      [([⟨0, 0, ⟨0, 0, 0⟩⟩, ⟨1, 0, ⟨0, 5, 5⟩⟩, ⟨1, 1, ⟨0, 1, 1⟩⟩], true, ())]
      = some [([none, some 0], [some 1, none])] := by decide +kernel

/-- C44 is false for the select allocator with two iterations: one input with two requests is given to both
outputs, because the grants of the first iteration are kept and the second one accepts again. -/
theorem C44_select_violated :
    ∃ s m, rounds sel (Sel.init 1 2 2) [([⟨0, 0, ⟨0, 0, 0⟩⟩, ⟨0, 1, ⟨0, 0, 0⟩⟩], true, ())] = some (s, [m]) ∧
      m.outm 0 = some 0 ∧ m.outm 1 = some 0 ∧ m.inm 0 = some 1 ∧
      ¬ Valid (asked [⟨0, 0, ⟨0, 0, 0⟩⟩, ⟨0, 1, ⟨0, 0, 0⟩⟩]) m := by
  have key : ∀ (s : Sel) (m : Match), m.outm 0 = some 0 → m.inm 0 = some 1 →
      ¬ Valid (asked [⟨0, 0, ⟨0, 0, 0⟩⟩, ⟨0, 1, ⟨0, 0, 0⟩⟩]) m := by
    intro s m h1 h2 hv
    rw [← hv.1, h2] at h1
    cases h1
  generalize hr : rounds sel (Sel.init 1 2 2) [([⟨0, 0, ⟨0, 0, 0⟩⟩, ⟨0, 1, ⟨0, 0, 0⟩⟩], true, ())] = x
  have hd : (outcome sel 1 2 (Sel.init 1 2 2) [([⟨0, 0, ⟨0, 0, 0⟩⟩, ⟨0, 1, ⟨0, 0, 0⟩⟩], true, ())]) =
      some [([some 1], [some 0, some 0])] := by decide +kernel
  unfold outcome at hd
  rw [hr] at hd
  match x, hd with
  | some (s, [m]), hd =>
    simp only [Option.map_some, List.map_cons, List.map_nil, views, List.range_succ, List.range_zero, List.nil_append,
      List.cons_append, Option.some.injEq, List.cons.injEq, Prod.mk.injEq, and_true] at hd
    exact ⟨s, m, rfl, hd.2.1, hd.2.2, hd.1, key s m hd.2.1 hd.1⟩

/-- C44. The separable allocators with any class of arbiter that can be built for both sizes. -/
theorem C44_separable (k : Arb.Kind) (I O : Nat) (hI : k.Fits I) (hO : k.Fits O) (inputFirst : Bool) :
    Holds (sep k.ops inputFirst) I O (Sep.init k.make I O) fun l m => Valid (asked l) m := by
  obtain ⟨id1, w1, L1, h1⟩ := k.lawful O hO
  obtain ⟨id2, w2, L2, h2⟩ := k.lawful I hI
  refine (sep_good L1 L2 inputFirst).holds ⟨BIdle.init I O, fun _ _ => ?_, fun _ _ => ?_⟩ fun _ _ _ h => h.1
  · exact L1.clears h1
  · exact L2.clears h2

/-- Two inputs that first choose the same output; afterwards the arbiters have moved on. -/
example : Arb.Kind.roundRobin.Fits 2 ∧
    outcome (sep Arb.Kind.roundRobin.ops true) 2 2 (Sep.init Arb.Kind.roundRobin.make 2 2)
      [([⟨0, 0, ⟨0, 0, 0⟩⟩, ⟨0, 1, ⟨0, 0, 0⟩⟩, ⟨1, 0, ⟨0, 0, 0⟩⟩], true, ()),
       ([⟨0, 0, ⟨0, 0, 0⟩⟩, ⟨0, 1, ⟨0, 0, 0⟩⟩, ⟨1, 0, ⟨0, 0, 0⟩⟩], true, ())]
      = some [([some 0, none], [some 0, none]), ([some 1, some 0], [some 1, some 0])] := by
  refine ⟨by simp [Arb.Kind.Fits], by decide +kernel⟩

/-- C44. The wavefront allocator, with or without skipping diagonals. -/
theorem C44_wavefront (I O : Nat) (skipDiags : Bool) :
    Holds wf I O (Wf.init I O skipDiags) fun l m => Valid (asked l) m :=
  (wf_good I O).holds (FIdle.init I O skipDiags) fun _ _ _ h => h.1

/-- The third request replaces the first one. -/
example : outcome wf 2 3 (Wf.init 2 3 true)
      [([⟨0, 2, ⟨0, 0, 0⟩⟩, ⟨1, 2, ⟨0, 1, 1⟩⟩, ⟨0, 2, ⟨0, 4, 4⟩⟩], true, ()), ([], true, ()), ([⟨1, 0, ⟨0, 0, 0⟩⟩], true, ())]
      = some [([some 2, none], [none, none, some 0]), ([none, none], [none, none, none]),
              ([none, some 0], [some 1, none, none])] := by decide +kernel

/-- C45. After a wavefront allocation no requested pair has both sides free, and a request is only denied for
one at the same input or output whose priority is not lower. -/
theorem C45_wavefront_maximal (I O : Nat) (skipDiags : Bool) :
    Holds wf I O (Wf.init I O skipDiags) fun l m => Maximal (asked l) m ∧ Ranked (asked l) m :=
  (wf_good I O).holds (FIdle.init I O skipDiags) fun _ _ _ h => ⟨ranked_maximal h.1 h.2, h.2⟩

/-- The urgent request in the middle blocks two others. -/
example : outcome wf 3 3 (Wf.init 3 3 false)
      [([⟨0, 1, ⟨0, 0, 0⟩⟩, ⟨1, 0, ⟨0, 0, 0⟩⟩, ⟨1, 1, ⟨0, 2, 2⟩⟩, ⟨2, 2, ⟨0, 0, 0⟩⟩], true, ())]
      = some [([none, some 1, some 2], [none, some 1, some 2])] := by decide +kernel

/-- C68. iSLIP grants something when there are requests, and `min I O` iterations leave no requested pair
with both sides free. -/
theorem C68_islip (I O iters : Nat) (h : 0 < iters) :
    Holds islip I O (Islip.init I O iters) fun l m =>
      (l ≠ [] → m.Some) ∧ (min I O ≤ iters → Maximal (asked l) m) :=
  (islip_good I O iters).holds ⟨BIdle.init I O, rfl⟩ fun l _ ha hp => by
    rcases hp with hp | ⟨rfl, rfl⟩
    · exact ⟨hp.some h, hp.maximal ha.inRange⟩
    · exact ⟨fun e => absurd rfl e, fun _ i o hq => absurd rfl hq⟩

/-- One iteration leaves output 1 idle although input 0 requests it, two do not. -/
example : (outcome islip 2 2 (Islip.init 2 2 1)
      [([⟨0, 0, ⟨0, 0, 0⟩⟩, ⟨1, 0, ⟨0, 0, 0⟩⟩, ⟨0, 1, ⟨0, 0, 0⟩⟩], true, ()), ([⟨1, 0, ⟨0, 0, 0⟩⟩, ⟨1, 1, ⟨0, 0, 0⟩⟩, ⟨0, 1, ⟨0, 0, 0⟩⟩], true, ())]
      = some [([some 0, none], [some 0, none]), ([some 1, some 0], [some 1, some 0])]) ∧
    outcome islip 2 2 (Islip.init 2 2 2)
      [([⟨0, 0, ⟨0, 0, 0⟩⟩, ⟨0, 1, ⟨0, 0, 0⟩⟩, ⟨1, 1, ⟨0, 0, 0⟩⟩], true, ())]
      = some [([some 0, some 1], [some 0, some 1])] := by decide +kernel

/-- C68. PIM, for any random numbers. -/
theorem C68_pim (I O iters : Nat) (h : 0 < iters) :
    Holds (pim iters) I O (Base.init I O) fun l m =>
      (l ≠ [] → m.Some) ∧ (min I O ≤ iters → Maximal (asked l) m) :=
  (pim_good I O iters).holds (BIdle.init I O) fun l _ ha hp => by
    rcases hp with hp | ⟨rfl, rfl⟩
    · exact ⟨hp.some h, hp.maximal ha.inRange⟩
    · exact ⟨fun e => absurd rfl e, fun _ i o hq => absurd rfl hq⟩

/-- One iteration is not enough when both outputs pick the same input. -/
example : outcome (pim 1) 2 2 (Base.init 2 2)
      [([⟨0, 0, ⟨0, 0, 0⟩⟩, ⟨1, 0, ⟨0, 0, 0⟩⟩, ⟨1, 1, ⟨0, 0, 0⟩⟩], true, fun _ => (fun _ => 1, fun _ => 1))]
      = some [([none, some 1], [none, some 1])] := by decide +kernel

/-- C68. The other allocators grant something when there are requests. -/
theorem C68_one_grant (k : Arb.Kind) (I O : Nat) (hI : k.Fits I) (hO : k.Fits O) (inputFirst : Bool) :
    Holds (sep k.ops inputFirst) I O (Sep.init k.make I O) (fun l m => l ≠ [] → m.Some) ∧
    Holds loa I O ⟨Base.init I O, fun _ => 0, fun _ => 0⟩ (fun l m => l ≠ [] → m.Some) ∧
    Holds sel I O (Sel.init I O 1) (fun l m => l ≠ [] → m.Some) := by
  obtain ⟨id1, w1, L1, h1⟩ := k.lawful O hO
  obtain ⟨id2, w2, L2, h2⟩ := k.lawful I hI
  refine ⟨?_, (loa_good I O).holds (BIdle.init I O) fun _ _ _ h => h.2,
    (sel_good I O).holds ⟨BIdle.init I O, rfl, fun _ => rfl⟩ fun _ _ _ h => h.2⟩
  refine (sep_good L1 L2 inputFirst).holds ⟨BIdle.init I O, fun _ _ => ?_, fun _ _ => ?_⟩ fun _ _ _ h => h.2
  · exact L1.clears h1
  · exact L2.clears h2

/-- An output-first allocator with matrix arbiters: both outputs choose input 1. -/
example : Arb.Kind.matrix.Fits 2 ∧
    outcome (sep Arb.Kind.matrix.ops false) 2 2 (Sep.init Arb.Kind.matrix.make 2 2)
      [([⟨0, 0, ⟨0, 0, 0⟩⟩, ⟨1, 0, ⟨0, 0, 0⟩⟩, ⟨1, 1, ⟨0, 0, 0⟩⟩], true, ())]
      = some [([none, some 1], [none, some 1])] := by
  refine ⟨by simp [Arb.Kind.Fits], by decide +kernel⟩

end RadSim.Alloc
