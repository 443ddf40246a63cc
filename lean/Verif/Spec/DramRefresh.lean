import Verif.Model.DramCtrl

/-! # The refresh plan

Specification only: which refresh is due, and when. Under the staggered policy the ranks take turns; under the bank policy
the groups take turns first, then the banks of a group, then the ranks. -/

namespace RadSim.DramSim

/-- The refresh number `k`, counted from 0, as it should be. -/
def planned (c : Cfg) (k : Nat) : Cmd × Addr :=
  match c.policy with
  | .bankStaggered => (.refBank,
      ⟨k / (c.p.groups * c.p.banksPerGroup) % c.p.ranks, k % c.p.groups, k / c.p.groups % c.p.banksPerGroup, 0, 0⟩)
  | _ => (.refresh, ⟨k % c.p.ranks, 0, 0, 0, 0⟩)

/-- The cycles between two refreshes: the time in which every rank, or every bank, needs one (`tREFI`), shared by the ranks,
or the time from bank to bank (`tREFIb`). -/
def spacing (c : Cfg) : Nat :=
  match c.policy with
  | .simultaneous => c.p.tREFI.toNat
  | .bankStaggered => c.p.tREFIb.toNat
  | .staggered => c.p.tREFI.toNat / c.p.ranks

/-- The refreshes among some commands, oldest first. -/
def refreshes (h : List Event) : List Event := (h.filter fun e => e.cmd = .refresh || e.cmd = .refBank).reverse

/-- The longest time from a command to a precharge of the same rank: after an activation, a read, a write or another
precharge. -/
def longestPre (p : Times) : Nat :=
  (max (max p.tRAS p.tPPD) (max (p.AL + p.tRTP) (p.AL + p.CWL + p.burst + p.tWR))).toNat

/-- The longest time from a command to a refresh of the same rank: after a precharge, by itself or with a read or a write,
after a refresh, or after a self-refresh. -/
def longestRef (p : Times) : Nat :=
  (max (max p.tRP (max p.tRFC p.tXS)) (max (p.AL + p.tRTP + p.tRP) (p.AL + p.CWL + p.burst + p.tWR + p.tRP))).toNat

/-- The longest time that a refresh of a rank should have to wait: the banks are closed one after the other, and then the
rank rests. -/
def refreshWait (p : Times) : Nat :=
  longestPre p + (p.groups * p.banksPerGroup - 1) * (p.tPPD.toNat + 1) + longestRef p + 1

end RadSim.DramSim
