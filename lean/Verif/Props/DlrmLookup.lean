import Verif.Lemmas.DlrmLookup

/-!
Properties of the embedding-lookup module of the DLRM design
(`embedding_lookup.cpp`).
-/
namespace RadSim.Dlrm

open Spec

/-- Whatever the timing: the module does not fail, and on every channel the addresses
asked for are those of the lookups handed over for this channel, in their order,
none twice and none left out.

Partial: asks that the memory side never accepts requests in two consecutive periods
(`C117_violated` below tells why). -/
theorem C117_requests_partial (cfg : ElCfg) (ins : Nat → ElIn) (hch : Channels cfg ins)
    (htw : NotTwice cfg ins) (n : Nat) :
    (∃ s, elAt cfg ins n = .ok s) ∧ ∀ c < cfg.numCh,
      requested cfg ins c n <+: wanted cfg.portBase c (handed cfg ins n) := by
  obtain ⟨s, hs, hi⟩ := el_run hch htw n
  exact ⟨⟨s, hs⟩, fun c hc => ⟨_, hi.all c hc⟩⟩

/-- Everything handed over is asked for: if the channel is ready at least once in any
`p` periods, then a channel with `L` lookups has sent them `(p+1) * L` periods later. -/
theorem C117_all_requested_partial (cfg : ElCfg) (ins : Nat → ElIn) (hch : Channels cfg ins)
    (htw : NotTwice cfg ins) (c n0 p : Nat) (hc : c < cfg.numCh) (hof : Often ins c n0 p) (n : Nat)
    (hn : n0 + (p + 1) * (wanted cfg.portBase c (handed cfg ins n0)).length ≤ n) :
    wanted cfg.portBase c (handed cfg ins n0) <+: requested cfg ins c n := by
  have h1 := el_all hch htw hc hof (wanted cfg.portBase c (handed cfg ins n0)).length
  have h2 := requested_mono cfg ins c
    (n0 + (p + 1) * (wanted cfg.portBase c (handed cfg ins n0)).length)
    (n - (n0 + (p + 1) * (wanted cfg.portBase c (handed cfg ins n0)).length))
  rw [show n0 + (p + 1) * (wanted cfg.portBase c (handed cfg ins n0)).length +
    (n - (n0 + (p + 1) * (wanted cfg.portBase c (handed cfg ins n0)).length)) = n by omega] at h2
  have h3 := (C117_requests_partial cfg ins hch htw n).2 c hc
  have h4 := wanted_mono cfg.portBase c (handed_mono cfg ins n0 (n - n0))
  rw [show n0 + (n - n0) = n by omega] at h4
  exact List.prefix_of_prefix_length_le h4 h3 (by omega)

namespace ElExample

/-- Two channels. -/
def cfg : ElCfg := ⟨2, 16, fun c => 1000 * c⟩

/-- Two vectors of three lookups each, and channels that are ready in every other
period. -/
def ins (n : Nat) : ElIn where
  valid := decide (n < 2)
  data := if n = 0 then [⟨1, 0, 10⟩, ⟨2, 1, 20⟩, ⟨3, 0, 30⟩]
    else if n = 1 then [⟨4, 0, 10⟩, ⟨5, 1, 20⟩, ⟨6, 0, 30⟩] else []
  arready := fun _ => n % 2 == 1

theorem channels : Channels cfg ins := by
  intro n l hl
  unfold ins at hl
  dsimp only at hl
  split at hl
  · revert l; decide
  · split at hl
    · revert l; decide
    · cases hl

theorem notTwice : NotTwice cfg ins := by
  intro n s _ c _ _ h
  simp only [ins, beq_iff_eq] at h
  simp only [ins, beq_eq_false_iff_ne]
  omega

theorem often : Often ins 0 2 2 := by
  intro m _
  rcases Nat.mod_two_eq_zero_or_one m with h | h
  · exact ⟨1, by decide, by simp only [ins, beq_iff_eq]; omega⟩
  · exact ⟨0, by decide, by simp only [ins, beq_iff_eq]; omega⟩

/-- The hypotheses hold together; channel 0 gets its four lookups in order. -/
example : wanted cfg.portBase 0 (handed cfg ins 2) <+: requested cfg ins 0 14 ∧
    wanted cfg.portBase 0 (handed cfg ins 2) = [11, 33, 14, 36] ∧
    requested cfg ins 1 14 = [1022, 1025] :=
  ⟨C117_all_requested_partial cfg ins channels notTwice 0 2 2 (by decide) often 14
    (by decide +kernel), by decide +kernel, by decide +kernel⟩

end ElExample

/-- If the memory side accepts in two consecutive periods, the module sends one lookup
twice and drops the next: the offer for the next period is written before the FIFO is
popped. -/
theorem C117_violated : ∃ (cfg : ElCfg) (ins : Nat → ElIn), Channels cfg ins ∧ cfg.depth = 16 ∧
    (∃ s, elAt cfg ins 5 = .ok s) ∧
    wanted cfg.portBase 0 (handed cfg ins 5) = [1, 2, 3] ∧
    requested cfg ins 0 5 = [1, 1] ∧
    ¬ requested cfg ins 0 5 <+: wanted cfg.portBase 0 (handed cfg ins 5) := by
  refine ⟨⟨1, 16, fun _ => 0⟩, fun n =>
    ⟨n == 0, if n = 0 then [⟨1, 0, 0⟩, ⟨2, 0, 0⟩, ⟨3, 0, 0⟩] else [],
      fun _ => n == 1 || n == 2⟩, ?_, rfl, ⟨_, rfl⟩, by decide +kernel, by decide +kernel,
      by decide +kernel⟩
  intro n l hl
  dsimp only at hl
  split at hl
  · revert l; decide
  · cases hl

/-- With one lookup waiting, a memory side that accepts in two consecutive periods makes
the module pop an empty queue. -/
theorem C117_pop_violated : ∃ (cfg : ElCfg) (ins : Nat → ElIn), Channels cfg ins ∧
    cfg.depth = 16 ∧ elAt cfg ins 3 = .error .ub := by
  refine ⟨⟨1, 16, fun _ => 0⟩, fun n =>
    ⟨n == 0, if n = 0 then [⟨1, 0, 0⟩] else [], fun _ => true⟩, ?_, rfl, by rfl⟩
  intro n l hl
  dsimp only at hl
  split at hl
  · revert l; decide
  · cases hl

/-- No channel ever has more lookups waiting than the depth its FIFO is given: those
handed over for it and not yet asked for are at most `depth`.

Partial: asks that a vector names a channel at most five times (and as
`C117_requests_partial` does of the memory side); `C119_waiting_violated` below tells
why. -/
theorem C119_waiting_partial (cfg : ElCfg) (ins : Nat → ElIn) (hch : Channels cfg ins)
    (htw : NotTwice cfg ins) (hd : 5 ≤ cfg.depth)
    (hfew : ∀ n, ∀ c < cfg.numCh, ((ins n).data.filter fun l => l.channel == c).length ≤ 5)
    (n c : Nat) (hc : c < cfg.numCh) :
    (wanted cfg.portBase c (handed cfg ins n)).length ≤
      (requested cfg ins c n).length + cfg.depth := by
  obtain ⟨s, hs, hi⟩ := el_run hch htw n
  have h1 := congrArg List.length (hi.all c hc)
  rw [List.length_append, List.length_map] at h1
  have h2 := (el_short hch hd hfew n s hs c hc).2
  omega

namespace ElDeep

/-- One channel and the depth that `dlrm_top.cpp` sets. -/
def cfg : ElCfg := ⟨1, 16, fun _ => 0⟩

/-- A vector of `k` lookups is shown in every period; the channel accepts one request. -/
def ins (k n : Nat) : ElIn where
  valid := true
  data := List.replicate k ⟨n, 0, 0⟩
  arready := fun _ => n == 1

theorem channels (k : Nat) : Channels cfg (ins k) := by
  intro n l hl
  rw [(List.mem_replicate.mp hl).2]
  exact Nat.zero_lt_one

theorem notTwice (k : Nat) : NotTwice cfg (ins k) := by
  intro n s _ c _ _ h
  simp only [ins, beq_iff_eq] at h
  simp only [ins, beq_eq_false_iff_ne]
  omega

/-- With five lookups per vector the hypotheses hold together; up to 14 wait. -/
example : (∀ n, (wanted cfg.portBase 0 (handed cfg (ins 5) n)).length ≤
      (requested cfg (ins 5) 0 n).length + 16) ∧
    (wanted cfg.portBase 0 (handed cfg (ins 5) 4)).length = 15 ∧
    (requested cfg (ins 5) 0 4).length = 1 :=
  ⟨fun n => C119_waiting_partial cfg (ins 5) (channels 5) (notTwice 5) (by decide)
    (fun n c _ => Nat.le_trans (List.length_filter_le _ _) (by simp [ins])) n 0 (by decide),
    by decide +kernel, by decide +kernel⟩

end ElDeep

/-- With six lookups per vector and channel, as with the shipped model `ab_large.csv`
(98 tables on 18 channels), 17 lookups wait in a FIFO of depth 16. -/
theorem C119_waiting_violated : Channels ElDeep.cfg (ElDeep.ins 6) ∧
    NotTwice ElDeep.cfg (ElDeep.ins 6) ∧ ElDeep.cfg.depth = 16 ∧
    (∀ n, (ElDeep.ins 6 n).data.length = 6) ∧
    (wanted ElDeep.cfg.portBase 0 (handed ElDeep.cfg (ElDeep.ins 6) 4)).length =
      (requested ElDeep.cfg (ElDeep.ins 6) 0 4).length + 17 :=
  ⟨ElDeep.channels 6, ElDeep.notTwice 6, rfl, fun _ => rfl, by decide +kernel⟩

end RadSim.Dlrm
