/-!
# Rules of a DRAM channel

What a DRAM device demands of the commands on its channel, in the words of its data sheet: the state diagram of a
bank, the minimal distances between commands, the data bus and the activation window. Nothing here refers to the
simulator. A history is a list of commands with their cycles, newest first. -/

namespace RadSim.DramSim

/-- The DRAM commands. -/
inductive Cmd
  | read | readPre | write | writePre | act | pre | refBank | refresh | srefIn | srefOut
  deriving DecidableEq, Repr

/-- A read, with or without auto-precharge. -/
def Cmd.isRead : Cmd → Bool
  | .read | .readPre => true
  | _ => false

/-- A write, with or without auto-precharge. -/
def Cmd.isWrite : Cmd → Bool
  | .write | .writePre => true
  | _ => false

/-- A command for a whole rank. -/
def Cmd.isRank : Cmd → Bool
  | .refresh | .srefIn | .srefOut => true
  | _ => false

/-- A place in a channel. Commands for a rank only have a rank, and only reads, writes and activations a row. -/
structure Addr where
  rank : Nat
  group : Nat
  bank : Nat
  row : Nat
  col : Nat
  deriving DecidableEq, Repr

/-- A command on the channel and its cycle. -/
structure Event where
  time : Nat
  cmd : Cmd
  addr : Addr
  deriving DecidableEq, Repr

/-- The same bank. -/
def SameBank (a b : Addr) : Prop := a.rank = b.rank ∧ a.group = b.group ∧ a.bank = b.bank

instance (a b : Addr) : Decidable (SameBank a b) := inferInstanceAs (Decidable (_ ∧ _ ∧ _))

/-- The row a bank has open after a history. -/
def openRow (a : Addr) : List Event → Option Nat
  | [] => none
  | e :: h =>
    if SameBank e.addr a then
      match e.cmd with
      | .act => some e.addr.row
      | .pre | .readPre | .writePre => none
      | _ => openRow a h
    else openRow a h

/-- A rank is in self-refresh after a history. -/
def asleep (r : Nat) : List Event → Bool
  | [] => false
  | e :: h =>
    if e.addr.rank = r then
      match e.cmd with
      | .srefIn => true
      | .srefOut => false
      | _ => asleep r h
    else asleep r h

/-- The state diagram: a command is allowed after a history. Reads and writes go to the open row, a bank is activated
only when it is closed and precharged only when it is open, a refresh finds everything closed, and a rank in
self-refresh takes nothing but the exit. -/
def Allowed (h : List Event) (e : Event) : Prop :=
  match e.cmd with
  | .read | .readPre | .write | .writePre => asleep e.addr.rank h = false ∧ openRow e.addr h = some e.addr.row
  | .act => asleep e.addr.rank h = false ∧ openRow e.addr h = none
  | .pre => asleep e.addr.rank h = false ∧ openRow e.addr h ≠ none
  | .refBank => asleep e.addr.rank h = false ∧ openRow e.addr h = none
  | .refresh | .srefIn => asleep e.addr.rank h = false ∧ ∀ a : Addr, a.rank = e.addr.rank → openRow a h = none
  | .srefOut => asleep e.addr.rank h = true

/-- Every command of a history is allowed after the ones before it. -/
def Legal : List Event → Prop
  | [] => True
  | e :: h => Allowed h e ∧ Legal h

/-- The timing parameters of a device, in cycles, and the size of a channel. -/
structure Times where
  ranks : Nat
  groups : Nat
  banksPerGroup : Nat
  /-- GDDR5, GDDR5X or GDDR6 -/
  gddr : Bool
  hbm : Bool
  lpddr4 : Bool
  burst : Int
  AL : Int
  CL : Int
  CWL : Int
  tCCD_L : Int
  tCCD_S : Int
  tRTRS : Int
  tRTP : Int
  tWTR_L : Int
  tWTR_S : Int
  tWR : Int
  tRP : Int
  tRRD_L : Int
  tRRD_S : Int
  tRAS : Int
  tRCD : Int
  tRCDRD : Int
  tRCDWR : Int
  tRFC : Int
  tRFCb : Int
  tREFI : Int
  tREFIb : Int
  tFAW : Int
  t32AW : Int
  tPPD : Int
  tCKESR : Int
  tXS : Int
  deriving Repr

namespace Times

/-- Read latency. -/
def RL (p : Times) : Int := p.AL + p.CL
/-- Write latency. -/
def WL (p : Times) : Int := p.AL + p.CWL
/-- Row cycle. -/
def tRC (p : Times) : Int := p.tRAS + p.tRP
/-- The distance that counts inside a bank group: with a single group it is the short one. -/
def inGroup (p : Times) (l s : Int) : Int := if p.groups = 1 then s else l
/-- From an activation to a read of its row. -/
def toRead (p : Times) : Int := if p.gddr || p.hbm then p.tRCDRD else p.tRCD - p.AL
/-- From an activation to a write of its row. -/
def toWrite (p : Times) : Int := if p.gddr || p.hbm then p.tRCDWR else p.tRCD - p.AL

end Times

/-- How two places lie to each other. -/
inductive Rel
  | sameBank | sameGroup | sameRank | inRank

/-- `sameGroup` and `sameRank` mean different banks of a group and different groups of a rank; `inRank` is any two
places of a rank. -/
def Related : Rel → Addr → Addr → Prop
  | .sameBank, a, b => SameBank a b
  | .sameGroup, a, b => a.rank = b.rank ∧ a.group = b.group ∧ a.bank ≠ b.bank
  | .sameRank, a, b => a.rank = b.rank ∧ a.group ≠ b.group
  | .inRank, a, b => a.rank = b.rank

/-- The minimal distances: after `c₁`, a `c₂` that lies so to it comes `d` cycles later at the earliest. -/
inductive Rule (p : Times) : Rel → Cmd → Cmd → Int → Prop
  | tRC : Rule p .sameBank .act .act p.tRC
  | tRRD_L : Rule p .sameGroup .act .act (p.inGroup p.tRRD_L p.tRRD_S)
  | tRRD_S : Rule p .sameRank .act .act p.tRRD_S
  | tRCD_read {c} (h : c.isRead) : Rule p .sameBank .act c p.toRead
  | tRCD_write {c} (h : c.isWrite) : Rule p .sameBank .act c p.toWrite
  | tRAS : Rule p .sameBank .act .pre p.tRAS
  | tRP_act : Rule p .sameBank .pre .act p.tRP
  | tRP_refBank : Rule p .sameBank .pre .refBank p.tRP
  | tRP_refresh : Rule p .inRank .pre .refresh p.tRP
  | tRP_sref : Rule p .inRank .pre .srefIn p.tRP
  | tRTP : Rule p .sameBank .read .pre (p.AL + p.tRTP)
  | tRTP_act : Rule p .sameBank .readPre .act (p.AL + p.burst + p.tRTP + p.tRP)
  | tRTP_refBank : Rule p .sameBank .readPre .refBank (p.AL + p.tRTP + p.tRP)
  | tRTP_refresh : Rule p .inRank .readPre .refresh (p.AL + p.tRTP + p.tRP)
  | tRTP_sref : Rule p .inRank .readPre .srefIn (p.AL + p.tRTP + p.tRP)
  | tWR : Rule p .sameBank .write .pre (p.WL + p.burst + p.tWR)
  | tWR_act : Rule p .sameBank .writePre .act (p.WL + p.burst + p.tWR + p.tRP)
  | tWR_refBank : Rule p .sameBank .writePre .refBank (p.WL + p.burst + p.tWR + p.tRP)
  | tWR_refresh : Rule p .inRank .writePre .refresh (p.WL + p.burst + p.tWR + p.tRP)
  | tWR_sref : Rule p .inRank .writePre .srefIn (p.WL + p.burst + p.tWR + p.tRP)
  | tCCD_read_bank {c} (h : c.isRead) : Rule p .sameBank .read c (p.inGroup p.tCCD_L p.tCCD_S)
  | tCCD_read_L {b c} (hb : b.isRead) (h : c.isRead) : Rule p .sameGroup b c (p.inGroup p.tCCD_L p.tCCD_S)
  | tCCD_read_S {b c} (hb : b.isRead) (h : c.isRead) : Rule p .sameRank b c p.tCCD_S
  | tCCD_write_bank {c} (h : c.isWrite) : Rule p .sameBank .write c (p.inGroup p.tCCD_L p.tCCD_S)
  | tCCD_write_L {b c} (hb : b.isWrite) (h : c.isWrite) : Rule p .sameGroup b c (p.inGroup p.tCCD_L p.tCCD_S)
  | tCCD_write_S {b c} (hb : b.isWrite) (h : c.isWrite) : Rule p .sameRank b c p.tCCD_S
  | tWTR_bank {c} (h : c.isRead) : Rule p .sameBank .write c (p.WL + p.burst + p.inGroup p.tWTR_L p.tWTR_S)
  | tWTR_L {b c} (hb : b.isWrite) (h : c.isRead) :
      Rule p .sameGroup b c (p.WL + p.burst + p.inGroup p.tWTR_L p.tWTR_S)
  | tWTR_S {b c} (hb : b.isWrite) (h : c.isRead) : Rule p .sameRank b c (p.WL + p.burst + p.tWTR_S)
  | tPPD_L (h : p.gddr || p.lpddr4) : Rule p .sameGroup .pre .pre p.tPPD
  | tPPD_S (h : p.gddr || p.lpddr4) : Rule p .sameRank .pre .pre p.tPPD
  | tRFC_act : Rule p .inRank .refresh .act p.tRFC
  | tRFC_refresh : Rule p .inRank .refresh .refresh p.tRFC
  | tRFC_sref : Rule p .inRank .refresh .srefIn p.tRFC
  | tCKESR : Rule p .inRank .srefIn .srefOut p.tCKESR
  | tXS_act : Rule p .inRank .srefOut .act p.tXS
  | tXS_refresh : Rule p .inRank .srefOut .refresh p.tXS
  | tXS_refBank : Rule p .inRank .srefOut .refBank p.tXS
  | tXS_sref : Rule p .inRank .srefOut .srefIn p.tXS

/-- Two more distances of the data sheets: a bank takes `tRFCb` cycles for its own refresh, and a row cycle passes
between an activation and a refresh. -/
inductive MoreRule (p : Times) : Rel → Cmd → Cmd → Int → Prop
  | tRFCb : MoreRule p .sameBank .refBank .act p.tRFCb
  | tRC_refresh : MoreRule p .inRank .act .refresh p.tRC

/-- Two commands of a history, the later one first: `e` comes after `d`. -/
def After (h : List Event) (e d : Event) : Prop := ∃ u v w, h = u ++ e :: v ++ d :: w

/-- All minimal distances of a set of rules are kept. -/
def Spaced (rule : Rel → Cmd → Cmd → Int → Prop) (h : List Event) : Prop :=
  ∀ d e r g, After h e d → Related r d.addr e.addr → rule r d.cmd e.cmd g → (d.time : Int) + g ≤ e.time

/-- When the data of a read or write begin to move. -/
def dataStart (p : Times) (e : Event) : Int := e.time + if e.cmd.isRead then p.RL else p.WL

/-- The data bus: bursts follow each other without overlap, and there is a pause of `tRTRS` cycles where a read is
followed by a write, or by a read of another rank, or a write by a read of another rank. -/
def BusFree (p : Times) (h : List Event) : Prop :=
  ∀ d e, After h e d → (d.cmd.isRead || d.cmd.isWrite) → (e.cmd.isRead || e.cmd.isWrite) →
    dataStart p d + p.burst +
      (if d.cmd.isRead ∧ e.cmd.isWrite ∨ d.addr.rank ≠ e.addr.rank ∧ e.cmd.isRead then p.tRTRS else 0)
        ≤ dataStart p e

/-- The cycles of the activations of a rank, newest first. -/
def activations (r : Nat) (h : List Event) : List Nat :=
  (h.filter fun e => e.cmd = .act ∧ e.addr.rank = r).map Event.time

/-- In any `n + 1` activations of a rank in a row, the last comes at least `w` cycles after the first. -/
def Window (n : Nat) (w : Int) (h : List Event) : Prop :=
  ∀ (r i x y : Nat), (activations r h)[i]? = some y → (activations r h)[i + n]? = some x → (x : Int) + w ≤ y

end RadSim.DramSim
