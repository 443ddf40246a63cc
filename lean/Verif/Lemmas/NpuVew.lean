import Verif.Spec.NpuVew
import Verif.Lemmas.NpuDecode
import Verif.Lemmas.NpuPath

/-!
# The external register file and the multi-function units of the `npu`: lemmas

`h` is the list of the cycles so far, the newest first. -/

namespace RadSim.Npu

variable {U W : Type}

/-! ## FIFOs of words -/

structure DSound (limit : Nat) (f : Fifo W) : Prop where
  empty : f.empty = f.mem.isEmpty
  almostFull : f.almostFull = decide (limit ≤ f.mem.length)
  rdata : ∀ m t, f.mem = m :: t → f.rdata = m

theorem dsound_tick {limit : Nat} (zero : W) (f : Fifo W) (ren : Bool) (hr : ren = true → f.mem ≠ []) (push : Option W)
    (hp : push.isSome = true → f.mem.length < dataDepth) :
    ∃ f', f.dataTick limit zero ren push = some f' ∧ DSound limit f' ∧ f'.mem = (if ren then f.mem.tail else f.mem) ++ push.toList := by
  have h1 : ¬ (ren = true ∧ f.mem = []) := fun ⟨a, b⟩ => hr a b
  have ht : (if ren then f.mem.tail else f.mem).length ≤ f.mem.length := by
    split
    · simp
    · exact Nat.le_refl _
  unfold Fifo.dataTick
  rw [if_neg h1]
  generalize hm : (if ren then f.mem.tail else f.mem) = m1 at *
  cases push with
  | none => exact ⟨_, rfl, ⟨rfl, rfl, headD_sound zero m1⟩, by simp⟩
  | some x =>
    have := hp rfl
    simp only
    rw [if_neg (by omega)]
    exact ⟨_, rfl, ⟨rfl, rfl, headD_sound zero (m1 ++ [x])⟩, by simp⟩

/-! ## Counting in a pipeline -/

theorem shift_count {α : Type} (p : α → Bool) {n : Nat} (hn : 1 ≤ n) (x d : α) {l : List α} (hl : l.length = n) :
    (shift n x l).countP p + (p (l.getD (n - 1) d)).toNat = l.countP p + (p x).toNat := by
  have hne : l ≠ [] := by
    intro e
    rw [e] at hl
    simp at hl
    omega
  have h1 : shift n x l = x :: l.dropLast := by
    unfold shift
    obtain ⟨k, rfl⟩ : ∃ k, n = k + 1 := ⟨n - 1, by omega⟩
    rw [List.take_succ_cons, List.dropLast_eq_take, hl, Nat.add_sub_cancel]
  have h2 : l.getD (n - 1) d = l.getLast hne := by
    rw [List.getD_eq_getElem?_getD, List.getLast_eq_getElem, List.getElem?_eq_getElem (by omega)]
    simp [hl]
  have h3 : l.countP p = l.dropLast.countP p + (p (l.getLast hne)).toNat := by
    conv => lhs; rw [← List.dropLast_concat_getLast hne]
    rw [List.countP_append]
    cases h : p (l.getLast hne) <;> simp [h]
  rw [h1, h2, h3, List.countP_cons]
  cases p x <;> simp <;> omega

theorem shift_length {α : Type} {n : Nat} (x : α) {l : List α} (hl : l.length = n) : (shift n x l).length = n := by
  unfold shift
  simp [hl]

/-! ## The history -/

abbrev VHist (U W : Type) := List (VOut U W × VIn U W)

def vpast (K : VKind U W) (h : VHist U W) (i : Nat) : Slot U W := (h.map fun x => x.1.slot).getD i ⟨K.dflt, none⟩

theorem vpast_succ (K : VKind U W) (x : VOut U W × VIn U W) (h : VHist U W) (i : Nat) : vpast K (x :: h) (i + 1) = vpast K h i := by
  simp [vpast]

theorem vpast_drop (K : VKind U W) (h : VHist U W) (k i : Nat) : vpast K (h.drop k) i = vpast K h (k + i) := by
  simp [vpast, List.getD_eq_getElem?_getD, List.getElem?_drop]

/-- The inputs of a register file. -/
def rfIns (K : VKind U W) (addr : U → Nat) (port : VIn U W → WPort W) : VHist U W → List (Option (RegIn W))
  | [] => []
  | x :: h => rfIns K addr port h ++ [some ⟨addr (vpast K h (K.A - 1)).uop, (port x.2).addr, (port x.2).data, (port x.2).en⟩]

/-- The output of a register file. -/
def rdOf [DecidableEq W] (K : VKind U W) (rf : RegFile W) (addr : U → Nat) (port : VIn U W → WPort W) (h : VHist U W) : W :=
  match rf.run (rfIns K addr port h) with
  | some r => r.rdata
  | none => rf.rdata

/-- The newest result. -/
def vresOf [DecidableEq W] (K : VKind U W) (s0 : VUnit U W) (h : VHist U W) : Option W :=
  K.result (vpast K h (K.A + 2 + K.V)) (rdOf K s0.rf0 K.addr0 VIn.port0 (h.drop (K.V + 1)))
    (rdOf K s0.rf1 K.addr1 VIn.port1 (h.drop (K.V + 1)))

/-- All that has been put in the output FIFO. -/
def pushedOf [DecidableEq W] (K : VKind U W) (s0 : VUnit U W) : VHist U W → List W
  | [] => []
  | _ :: h => pushedOf K s0 h ++ (vresOf K s0 (h.drop (K.E - 1))).toList

/-- The addresses of a micro-op are in the register files. -/
def Within (K : VKind U W) (s0 : VUnit U W) (u : U) : Prop := K.addr0 u < s0.rf0.mem.length ∧ K.addr1 u < s0.rf1.mem.length

structure VInv [DecidableEq W] (K : VKind U W) (s0 : VUnit U W) (h : VHist U W) (s : VUnit U W) : Prop where
  uf : Sound s.uf
  inf : DSound (dataDepth - K.N) s.inf
  infRoom : s.inf.mem.length ≤ dataDepth - K.N
  of : DSound (dataDepth - K.N) s.of
  room : s.of.mem.length + s.outp.countP (·.isSome) + s.slots.countP (·.word.isSome) ≤ dataDepth
  slots : s.slots = pipe (K.A + 2 + K.V) (vpast K h)
  rf0 : s0.rf0.run (rfIns K K.addr0 VIn.port0 h) = some s.rf0
  rf1 : s0.rf1.run (rfIns K K.addr1 VIn.port1 h) = some s.rf1
  inv0 : s.rf0.Inv
  inv1 : s.rf1.Inv
  len0 : s.rf0.mem.length = s0.rf0.mem.length
  len1 : s.rf1.mem.length = s0.rf1.mem.length
  v0 : s.v0.length = K.V ∧ ∀ i, i < K.V → i < h.length → s.v0.getD i K.zero = rdOf K s0.rf0 K.addr0 VIn.port0 (h.drop (i + 1))
  v1 : s.v1.length = K.V ∧ ∀ i, i < K.V → i < h.length → s.v1.getD i K.zero = rdOf K s0.rf1 K.addr1 VIn.port1 (h.drop (i + 1))
  outp : s.outp = pipe K.E fun i => vresOf K s0 (h.drop i)
  within : Within K s0 K.dflt ∧ Within K s0 s.uf.rdata ∧ (∀ u ∈ s.uf.mem, Within K s0 u) ∧ ∀ x ∈ h, Within K s0 x.1.slot.uop
  uops : h.reverse.filterMap (fun x => x.1.slot.word.map fun _ => x.1.slot.uop) ++ s.uf.mem = h.reverse.filterMap (·.1.uop)
  words : h.reverse.filterMap (fun x => if K.takes x.1.slot.uop then x.1.slot.word else none) ++ s.inf.mem = h.reverse.filterMap (·.1.word)
  given : h.reverse.filterMap (·.1.given) ++ s.of.mem = pushedOf K s0 h

theorem pipe_length {α : Type} (n : Nat) (F : Nat → α) : (pipe n F).length = n := by
  unfold pipe
  simp

theorem vpast_within {K : VKind U W} {s0 : VUnit U W} {h : VHist U W} (hd : Within K s0 K.dflt) (hh : ∀ x ∈ h, Within K s0 x.1.slot.uop)
    (i : Nat) : Within K s0 (vpast K h i).uop := by
  unfold vpast
  rw [List.getD_eq_getElem?_getD, List.getElem?_map]
  cases e : h[i]? with
  | none => exact hd
  | some x => exact hh x (List.mem_of_getElem? e)

theorem vpast_some {K : VKind U W} {h : VHist U W} {i : Nat} {w : W} (e : (vpast K h i).word = some w) : i < h.length := by
  rcases Nat.lt_or_ge i h.length with h1 | h1
  · exact h1
  · unfold vpast at e
    rw [List.getD_eq_getElem?_getD, List.getElem?_eq_none (by simpa using h1)] at e
    cases e

/-- The stages between a register file and the computation. -/
theorem v_step [DecidableEq W] {K : VKind U W} {rf r : RegFile W} {addr : U → Nat} {port : VIn U W → WPort W} {h : VHist U W} {v : List W}
    (hr : rf.run (rfIns K addr port h) = some r)
    (hv : v.length = K.V ∧ ∀ i, i < K.V → i < h.length → v.getD i K.zero = rdOf K rf addr port (h.drop (i + 1))) (x : VOut U W × VIn U W) :
    ((shift K.V r.rdata v).length = K.V ∧ ∀ i, i < K.V → i < (x :: h).length →
      (shift K.V r.rdata v).getD i K.zero = rdOf K rf addr port ((x :: h).drop (i + 1))) ∧
    (K.V ≤ h.length → (r.rdata :: v).getD K.V K.zero = rdOf K rf addr port ((x :: h).drop (K.V + 1))) := by
  have h0 : r.rdata = rdOf K rf addr port h := by
    unfold rdOf
    rw [hr]
  have key : ∀ i, i ≤ K.V → i ≤ h.length → (r.rdata :: v).getD i K.zero = rdOf K rf addr port ((x :: h).drop (i + 1)) := by
    intro i h1 h2
    cases i with
    | zero => exact h0
    | succ i =>
      show v.getD i K.zero = _
      exact hv.2 i (by omega) (by omega)
  refine ⟨⟨shift_length _ hv.1, ?_⟩, fun hl => key K.V (Nat.le_refl _) hl⟩
  intro i h1 h2
  rw [← key i (by omega) (by simpa using Nat.le_of_lt_succ h2)]
  unfold shift
  simp only [List.getD_eq_getElem?_getD]
  rw [List.getElem?_take, if_pos h1]

theorem fifo_rdata {M : Type} {limit : Nat} {dflt : M} {f f' : Fifo M} {ren : Bool} {push : Option M}
    (h : f.tick limit dflt ren push = some f') : f'.rdata = f'.mem.headD dflt := by
  unfold Fifo.tick at h
  split at h
  · cases h
  · generalize (if ren then f.mem.tail else f.mem) = m1 at h
    cases push with
    | none => cases h; rfl
    | some x =>
      simp only at h
      by_cases hc : limit < m1.length
      · simp only [if_pos hc] at h
        cases h
      · simp only [if_neg hc] at h
        cases h; rfl

theorem VInv.tick [DecidableEq W] {K : VKind U W} (hA : 1 ≤ K.A) (hE : 1 ≤ K.E) {s0 s : VUnit U W} {h : VHist U W} (hi : VInv K s0 h s)
    (i : VIn U W) (hu : ∀ u, i.uop = some u → Within K s0 u) (hp0 : i.port0.addr < s0.rf0.mem.length)
    (hp1 : i.port1.addr < s0.rf1.mem.length) :
    ∃ o s', s.tick K i = some (o, s') ∧ VInv K s0 ((o, i) :: h) s' := by
  obtain ⟨wd, wr, wm, wh⟩ := hi.within
  -- what is read
  have hread : s.slots.getD (K.A - 1) ⟨K.dflt, none⟩ = vpast K h (K.A - 1) := by
    rw [hi.slots, pipe_getD (by omega)]
  have hlast : s.slots.getD (K.A + 1 + K.V) ⟨K.dflt, none⟩ = vpast K h (K.A + 1 + K.V) := by
    rw [hi.slots, pipe_getD (by omega)]
  have hout : s.outp.getD (K.E - 1) none = vresOf K s0 (h.drop (K.E - 1)) := by
    rw [hi.outp, pipe_getD (by omega)]
  have hw := vpast_within wd wh (K.A - 1)
  -- the issue
  have hiss : s.issue K i = true → s.uf.mem ≠ [] ∧ s.of.mem.length + K.N < dataDepth ∧ (K.takes s.uf.rdata = true → s.inf.mem ≠ []) := by
    intro e
    unfold VUnit.issue at e
    simp only [Bool.and_eq_true, Bool.not_eq_true', Bool.or_eq_true] at e
    obtain ⟨⟨⟨⟨e1, e2⟩, _⟩, _⟩, e5⟩ := e
    refine ⟨?_, ?_, ?_⟩
    · rw [hi.uf.empty] at e1
      intro e; rw [e] at e1; cases e1
    · rw [hi.of.almostFull] at e2
      have := of_decide_eq_false e2
      omega
    · intro ht
      rcases e5 with e5 | e5
      · rw [ht] at e5; cases e5
      · rw [hi.inf.empty] at e5
        intro e; rw [e] at e5; cases e5
  -- the FIFOs
  obtain ⟨uf', u1, u2, u3⟩ := sound_tick hi.uf K.dflt (s.issue K i) (fun e => (hiss e).1) i.uop
  have htake : (s.issue K i && K.takes s.uf.rdata) = true → s.inf.mem ≠ [] := by
    intro e
    rw [Bool.and_eq_true] at e
    exact (hiss e.1).2.2 e.2
  have hwd : (if s.inf.almostFull then none else i.word).isSome = true → s.inf.mem.length < dataDepth - K.N := by
    intro e
    cases ha : s.inf.almostFull
    · rw [hi.inf.almostFull] at ha
      have := of_decide_eq_false ha
      omega
    · rw [ha] at e; cases e
  obtain ⟨inf', n1, n2, n3⟩ := dsound_tick (limit := dataDepth - K.N) K.zero s.inf (s.issue K i && K.takes s.uf.rdata) htake
    (if s.inf.almostFull then none else i.word) (fun e => by have := hwd e; omega)
  have hpop : (i.ren && !s.of.empty) = true → s.of.mem ≠ [] := by
    intro e
    rw [Bool.and_eq_true, hi.of.empty] at e
    intro e'; rw [e'] at e; cases e.2
  have hcnt : (s.outp.getD (K.E - 1) none).isSome = true → s.of.mem.length < dataDepth := by
    intro e
    have hr := hi.room
    have : 1 ≤ s.outp.countP (·.isSome) := by
      have hl : K.E - 1 < s.outp.length := by rw [hi.outp, pipe_length]; omega
      rw [List.getD_eq_getElem?_getD, List.getElem?_eq_getElem hl] at e
      exact List.countP_pos_iff.2 ⟨_, List.getElem_mem hl, e⟩
    omega
  obtain ⟨of', o1, o2, o3⟩ := dsound_tick (limit := dataDepth - K.N) K.zero s.of (i.ren && !s.of.empty) hpop
    (s.outp.getD (K.E - 1) none) hcnt
  -- the register files
  obtain ⟨rf0', r1, r2, r3, _, _⟩ := RegFile.tick_inv hi.inv0 ⟨K.addr0 (vpast K h (K.A - 1)).uop, i.port0.addr, i.port0.data, i.port0.en⟩
    (by rw [hi.len0]; exact hw.1) (by rw [hi.len0]; exact hp0)
  obtain ⟨rf1', q1, q2, q3, _, _⟩ := RegFile.tick_inv hi.inv1 ⟨K.addr1 (vpast K h (K.A - 1)).uop, i.port1.addr, i.port1.data, i.port1.en⟩
    (by rw [hi.len1]; exact hw.2) (by rw [hi.len1]; exact hp1)
  let slot : Slot U W := ⟨s.uf.rdata, if s.issue K i then some s.inf.rdata else none⟩
  let o : VOut U W := ⟨if s.uf.almostFull then none else i.uop, if s.inf.almostFull then none else i.word, slot,
    if (i.ren && !s.of.empty) = true then some s.of.rdata else none⟩
  obtain ⟨a1, a2⟩ := v_step hi.rf0 hi.v0 (o, i)
  obtain ⟨b1, b2⟩ := v_step hi.rf1 hi.v1 (o, i)
  -- the result
  have hres : K.result (vpast K h (K.A + 1 + K.V)) ((s.rf0.rdata :: s.v0).getD K.V K.zero) ((s.rf1.rdata :: s.v1).getD K.V K.zero) =
      vresOf K s0 ((o, i) :: h) := by
    unfold vresOf
    rw [show K.A + 2 + K.V = (K.A + 1 + K.V) + 1 by omega, vpast_succ]
    unfold VKind.result
    cases e : (vpast K h (K.A + 1 + K.V)).word with
    | none => rfl
    | some w =>
      have := vpast_some e
      simp only
      rw [a2 (by omega), b2 (by omega)]
  let s' : VUnit U W :=
    { uf := uf', inf := inf', slots := shift (K.A + 2 + K.V) slot s.slots, rf0 := rf0', rf1 := rf1'
      v0 := shift K.V s.rf0.rdata s.v0, v1 := shift K.V s.rf1.rdata s.v1, outp := shift K.E (vresOf K s0 ((o, i) :: h)) s.outp, of := of' }
  have htick : s.tick K i = some (o, s') := by
    unfold VUnit.tick
    simp only [hread, hlast]
    rw [hres, u1, n1, r1, q1, o1]
  refine ⟨o, s', htick, ?_⟩
  have hslen : s.slots.length = K.A + 2 + K.V := by rw [hi.slots, pipe_length]
  have holen : s.outp.length = K.E := by rw [hi.outp, pipe_length]
  constructor
  · exact u2
  · exact n2
  · -- room in the input FIFO
    show inf'.mem.length ≤ _
    rw [n3, List.length_append]
    have h1 : (if (s.issue K i && K.takes s.uf.rdata) = true then s.inf.mem.tail else s.inf.mem).length ≤ s.inf.mem.length := by
      split
      · simp
      · exact Nat.le_refl _
    generalize (if (s.issue K i && K.takes s.uf.rdata) = true then s.inf.mem.tail else s.inf.mem) = m1 at h1 ⊢
    have := hi.infRoom
    cases hw' : (if s.inf.almostFull then none else i.word) with
    | none => simp; omega
    | some w =>
      rw [hw'] at hwd
      have := hwd rfl
      simp
      omega
  · exact o2
  · -- room in the output FIFO
    show of'.mem.length + (shift K.E _ s.outp).countP _ + (shift (K.A + 2 + K.V) slot s.slots).countP _ ≤ _
    have c1 := shift_count (·.isSome) hE (vresOf K s0 ((o, i) :: h)) none holen
    have c2 := shift_count (fun x : Slot U W => x.word.isSome) (show 1 ≤ K.A + 2 + K.V by omega) slot ⟨K.dflt, none⟩ hslen
    rw [show K.A + 2 + K.V - 1 = K.A + 1 + K.V by omega, hlast] at c2
    have h1 : (if (i.ren && !s.of.empty) = true then s.of.mem.tail else s.of.mem).length ≤ s.of.mem.length := by
      split
      · simp
      · exact Nat.le_refl _
    have h2 : of'.mem.length ≤ s.of.mem.length + ((s.outp.getD (K.E - 1) none).isSome).toNat := by
      rw [o3, List.length_append]
      generalize (if (i.ren && !s.of.empty) = true then s.of.mem.tail else s.of.mem) = m1 at h1 ⊢
      cases s.outp.getD (K.E - 1) none <;> simp <;> omega
    have h3 : ((vresOf K s0 ((o, i) :: h)).isSome).toNat ≤ ((vpast K h (K.A + 1 + K.V)).word.isSome).toNat := by
      rw [← hres]
      unfold VKind.result
      cases (vpast K h (K.A + 1 + K.V)).word with
      | none => exact Nat.le_refl _
      | some w => simp only [Option.isSome_some, Bool.toNat_true]; exact Bool.toNat_le _
    have h4 : (slot.word.isSome).toNat = (s.issue K i).toNat := by
      show ((if s.issue K i then some s.inf.rdata else none).isSome).toNat = _
      cases s.issue K i <;> rfl
    have h5 : (s.outp.countP (·.isSome)) ≤ K.E := by rw [← holen]; exact List.countP_le_length
    have h6 : (s.slots.countP (·.word.isSome)) ≤ K.A + 2 + K.V := by rw [← hslen]; exact List.countP_le_length
    have h7 := hi.room
    cases e : s.issue K i with
    | false =>
      rw [e] at h4
      simp only [Bool.toNat_false] at h4
      omega
    | true =>
      have h8 := (hiss e).2.1
      unfold VKind.N at h8
      rw [e] at h4
      simp only [Bool.toNat_true] at h4
      omega
  · exact pipe_shift _ _ rfl (by rw [hi.slots]; rfl)
  · show s0.rf0.run (rfIns K K.addr0 VIn.port0 h ++ _) = _
    rw [RegFile.run_append, hi.rf0]
    simp [RegFile.run, r1]
    rfl
  · show s0.rf1.run (rfIns K K.addr1 VIn.port1 h ++ _) = _
    rw [RegFile.run_append, hi.rf1]
    simp [RegFile.run, q1]
    rfl
  · exact r2
  · exact q2
  · show rf0'.mem.length = _
    rw [r3]
    split <;> simp [hi.len0]
  · show rf1'.mem.length = _
    rw [q3]
    split <;> simp [hi.len1]
  · exact a1
  · exact b1
  · exact pipe_shift _ _ rfl (by rw [hi.outp]; rfl)
  · have hm : ∀ u ∈ uf'.mem, Within K s0 u := by
      intro u hu'
      rw [u3, List.mem_append] at hu'
      rcases hu' with hu' | hu'
      · split at hu'
        · exact wm u (List.mem_of_mem_tail hu')
        · exact wm u hu'
      · rw [Option.mem_toList] at hu'
        split at hu'
        · cases hu'
        · exact hu u hu'
    refine ⟨wd, ?_, hm, ?_⟩
    · show Within K s0 uf'.rdata
      rw [fifo_rdata u1]
      cases e : uf'.mem with
      | nil => exact wd
      | cons u t => exact hm u (by rw [e]; simp)
    · intro x hx
      rcases List.mem_cons.1 hx with rfl | hx
      · exact wr
      · exact wh x hx
  · -- micro-ops
    rw [List.reverse_cons, List.filterMap_append, List.filterMap_append, ← hi.uops]
    show _ ++ _ ++ uf'.mem = _
    rw [u3]
    have ho : (o.slot.word.map fun _ => o.slot.uop).toList ++ (if s.issue K i then s.uf.mem.tail else s.uf.mem) = s.uf.mem := by
      show ((if s.issue K i then some s.inf.rdata else none).map fun _ => s.uf.rdata).toList ++ _ = _
      cases e : s.issue K i with
      | false => rfl
      | true =>
        cases hm : s.uf.mem with
        | nil => exact absurd hm (hiss e).1
        | cons u t =>
          have := hi.uf.rdata u t hm
          simp [this]
    have hl : ([(o, i)] : VHist U W).filterMap (fun x => x.1.slot.word.map fun _ => x.1.slot.uop) =
        (o.slot.word.map fun _ => o.slot.uop).toList := by
      cases e : o.slot.word <;> simp [e]
    have hr : ([(o, i)] : VHist U W).filterMap (·.1.uop) = o.uop.toList := by
      cases e : o.uop <;> simp [e]
    rw [hl, hr]
    show _ = _ ++ (if s.uf.almostFull then none else i.uop).toList
    conv => rhs; rw [← ho]
    simp only [List.append_assoc]
  · -- words
    rw [List.reverse_cons, List.filterMap_append, List.filterMap_append, ← hi.words]
    show _ ++ _ ++ inf'.mem = _
    rw [n3]
    have ho : (if K.takes o.slot.uop then o.slot.word else none).toList ++
        (if (s.issue K i && K.takes s.uf.rdata) = true then s.inf.mem.tail else s.inf.mem) = s.inf.mem := by
      show (if K.takes s.uf.rdata then (if s.issue K i then some s.inf.rdata else none) else none).toList ++ _ = _
      cases ht : K.takes s.uf.rdata with
      | false => simp
      | true =>
        cases e : s.issue K i with
        | false => rfl
        | true =>
          cases hm : s.inf.mem with
          | nil => exact absurd hm ((hiss e).2.2 ht)
          | cons u t =>
            have := hi.inf.rdata u t hm
            simp [this]
    have hl : ([(o, i)] : VHist U W).filterMap (fun x => if K.takes x.1.slot.uop then x.1.slot.word else none) =
        (if K.takes o.slot.uop then o.slot.word else none).toList := by
      cases e : (if K.takes o.slot.uop then o.slot.word else none) <;> simp [e]
    have hr : ([(o, i)] : VHist U W).filterMap (·.1.word) = o.word.toList := by
      cases e : o.word <;> simp [e]
    rw [hl, hr]
    show _ = _ ++ (if s.inf.almostFull then none else i.word).toList
    conv => rhs; rw [← ho]
    simp only [List.append_assoc]
  · -- what is given
    rw [List.reverse_cons, List.filterMap_append]
    show _ ++ _ ++ of'.mem = pushedOf K s0 h ++ _
    rw [← hi.given, o3, hout]
    have ho : o.given.toList ++ (if (i.ren && !s.of.empty) = true then s.of.mem.tail else s.of.mem) = s.of.mem := by
      show (if (i.ren && !s.of.empty) = true then some s.of.rdata else none).toList ++ _ = _
      cases e : (i.ren && !s.of.empty) with
      | false => rfl
      | true =>
        cases hm : s.of.mem with
        | nil => exact absurd hm (hpop e)
        | cons u t =>
          have := hi.of.rdata u t hm
          simp [this]
    have hl : ([(o, i)] : VHist U W).filterMap (·.1.given) = o.given.toList := by
      cases e : o.given <;> simp [e]
    rw [hl]
    conv => rhs; rw [← ho]
    simp only [List.append_assoc]

end RadSim.Npu
