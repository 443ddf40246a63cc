import Verif.Lemmas.DramLegal

/-! # DRAM channels: distances, the data bus and the activation window -/

namespace RadSim.DramSim

open Chan

/-- The parameters of a configuration file. -/
def Times.raw (p : Times) : List Int :=
  [p.burst, p.AL, p.CL, p.CWL, p.tCCD_L, p.tCCD_S, p.tRTRS, p.tRTP, p.tWTR_L, p.tWTR_S, p.tWR, p.tRP, p.tRRD_L,
    p.tRRD_S, p.tRAS, p.tRCD, p.tRCDRD, p.tRCDWR, p.tRFC, p.tRFCb, p.tREFI, p.tREFIb, p.tFAW, p.t32AW, p.tPPD,
    p.tCKESR, p.tXS]

/-- Sane parameters: none is negative or huge, the additive latency does not exceed `tRCD` where it is subtracted, and
read and write latency are so close that a change of direction does not reach back beyond the activation. -/
structure Sane (p : Times) : Prop where
  range : ∀ x ∈ p.raw, 0 ≤ x ∧ x ≤ 1048576
  al : (p.gddr || p.hbm) = false → p.AL ≤ p.tRCD
  turnWrite : p.CL ≤ p.CWL + p.burst + p.tRTRS + p.toWrite
  turnRead : p.CWL ≤ p.CL + p.burst + p.tRTRS + p.toRead

/-- The parameters one by one. -/
theorem Sane.fields {p : Times} (h : Sane p) :
    (0 ≤ p.burst ∧ p.burst ≤ 1048576) ∧ (0 ≤ p.AL ∧ p.AL ≤ 1048576) ∧ (0 ≤ p.CL ∧ p.CL ≤ 1048576) ∧
    (0 ≤ p.CWL ∧ p.CWL ≤ 1048576) ∧ (0 ≤ p.tCCD_L ∧ p.tCCD_L ≤ 1048576) ∧ (0 ≤ p.tCCD_S ∧ p.tCCD_S ≤ 1048576) ∧
    (0 ≤ p.tRTRS ∧ p.tRTRS ≤ 1048576) ∧ (0 ≤ p.tRTP ∧ p.tRTP ≤ 1048576) ∧ (0 ≤ p.tWTR_L ∧ p.tWTR_L ≤ 1048576) ∧
    (0 ≤ p.tWTR_S ∧ p.tWTR_S ≤ 1048576) ∧ (0 ≤ p.tWR ∧ p.tWR ≤ 1048576) ∧ (0 ≤ p.tRP ∧ p.tRP ≤ 1048576) ∧
    (0 ≤ p.tRRD_L ∧ p.tRRD_L ≤ 1048576) ∧ (0 ≤ p.tRRD_S ∧ p.tRRD_S ≤ 1048576) ∧ (0 ≤ p.tRAS ∧ p.tRAS ≤ 1048576) ∧
    (0 ≤ p.tRCD ∧ p.tRCD ≤ 1048576) ∧ (0 ≤ p.tRCDRD ∧ p.tRCDRD ≤ 1048576) ∧ (0 ≤ p.tRCDWR ∧ p.tRCDWR ≤ 1048576) ∧
    (0 ≤ p.tRFC ∧ p.tRFC ≤ 1048576) ∧ (0 ≤ p.tRFCb ∧ p.tRFCb ≤ 1048576) ∧ (0 ≤ p.tREFI ∧ p.tREFI ≤ 1048576) ∧
    (0 ≤ p.tREFIb ∧ p.tREFIb ≤ 1048576) ∧ (0 ≤ p.tFAW ∧ p.tFAW ≤ 1048576) ∧ (0 ≤ p.t32AW ∧ p.t32AW ≤ 1048576) ∧
    (0 ≤ p.tPPD ∧ p.tPPD ≤ 1048576) ∧ (0 ≤ p.tCKESR ∧ p.tCKESR ≤ 1048576) ∧ (0 ≤ p.tXS ∧ p.tXS ≤ 1048576) := by
  have := h.range
  simpa [Times.raw] using this

theorem Sane.toRead {p : Times} (h : Sane p) : 0 ≤ p.toRead ∧ p.toRead ≤ 1048576 := by
  have hf := h.fields
  unfold Times.toRead
  split
  · omega
  · have := h.al (Bool.eq_false_iff.2 ‹_›); omega

theorem Sane.toWrite {p : Times} (h : Sane p) : 0 ≤ p.toWrite ∧ p.toWrite ≤ 1048576 := by
  have hf := h.fields
  unfold Times.toWrite
  split
  · omega
  · have := h.al (Bool.eq_false_iff.2 ‹_›); omega

theorem actToRead_eq (p : Times) : p.actToRead = p.toRead := rfl
theorem actToWrite_eq (p : Times) : p.actToWrite = p.toWrite := rfl

/-- A prescribed distance is not huge, and it can be negative only after a read or a write. -/
def Good (p : Times) (c : Cmd) (l : List (Cmd × Int)) : Prop :=
  ∀ y ∈ l, y.2 ≤ 16777216 ∧ (0 ≤ y.2 ∨ c.isRead ∧ 0 ≤ y.2 + p.toRead ∨ c.isWrite ∧ 0 ≤ y.2 + p.toWrite)

theorem good_tables {p : Times} (h : Sane p) (c : Cmd) :
    Good p c (p.sameBank c) ∧ Good p c (p.otherBanks c) ∧ Good p c (p.otherGroups c) ∧ Good p c (p.otherRanks c) ∧
      Good p c (p.sameRank c) := by
  have hf := h.fields
  have h1 := h.toRead
  have h2 := h.toWrite
  have h3 := h.turnRead
  have h4 := h.turnWrite
  have hp : ∀ (b : Bool) (l : List (Cmd × Int)), Good p .pre l → Good p .pre (if b then l else []) := by
    intro b l hl; split
    · exact hl
    · intro y hy; cases hy
  refine ⟨?_, ?_, ?_, ?_, ?_⟩ <;> cases c <;>
    simp only [Times.sameBank, Times.otherBanks, Times.otherGroups, Times.otherRanks, Times.sameRank, Times.columns,
      List.cons_append, List.nil_append, actToRead_eq, actToWrite_eq] <;>
    (try apply hp) <;>
    simp only [Good, List.forall_mem_cons, List.not_mem_nil, false_imp_iff, implies_true, and_true, Cmd.isRead,
      Cmd.isWrite, Bool.false_eq_true, false_and, true_and, or_false, false_or, Times.sameToSame_l, Times.sameToSame_s,
      Times.readToRead_o, Times.readDelay, Times.writeDelay, Times.readToWrite, Times.readToWrite_o, Times.readToPre,
      Times.readpToAct, Times.writeToRead_l, Times.writeToRead_s, Times.writeToRead_o, Times.writeToWrite_o,
      Times.writeToPre, Times.readToAct, Times.writeToAct, Times.actToAct_l, Times.RL, Times.WL, Times.tRC] <;>
    (try split) <;> (try omega)

theorem bound_good {p : Times} (h : Sane p) (c : Cmd) (a b : Addr) : Good p c (bound p c a b) := by
  obtain ⟨h1, h2, h3, h4, h5⟩ := good_tables h c
  unfold bound
  split
  · split
    · exact h5
    · intro y hy; cases hy
  · split
    · split
      · split
        · exact h1
        · exact h2
      · exact h3
    · exact h4

theorem later_eq {clk : Nat} {d : Int} (h0 : 0 ≤ (clk : Int) + d) (h1 : (clk : Int) + d < 18446744073709551616) :
    ((later clk d : Nat) : Int) = clk + d := by
  unfold later
  rw [Int.emod_eq_of_lt h0 h1, Int.toNat_of_nonneg h0]

theorem openRow_some {a : Addr} {h : List Event} {r : Nat} (ho : openRow a h = some r) :
    ∃ e ∈ h, e.cmd = .act ∧ SameBank e.addr a := by
  induction h with
  | nil => cases ho
  | cons e h ih =>
    simp only [openRow] at ho
    split at ho
    · rename_i hs
      split at ho
      · exact ⟨e, List.mem_cons_self .., by assumption, hs⟩
      · cases ho
      · cases ho
      · cases ho
      · obtain ⟨d, hd, h⟩ := ih ho; exact ⟨d, List.mem_cons_of_mem _ hd, h⟩
    · obtain ⟨d, hd, h⟩ := ih ho; exact ⟨d, List.mem_cons_of_mem _ hd, h⟩

/-- A later command keeps all distances that an earlier one prescribes for the banks it looked at. -/
def Apart (p : Times) (e d : Event) : Prop :=
  ∀ a, Exists p a → checks e.cmd e.addr a → ∀ y ∈ bound p d.cmd d.addr a, y.1 = e.cmd → (d.time : Int) + y.2 ≤ e.time

/-- A list of activation times, as kept for a window of `n` activations and `w` cycles. -/
def WindowOk (n w clk : Nat) (l acts : List Nat) : Prop :=
  ∃ k, k ≤ n ∧ k ≤ acts.length ∧ l.reverse = (acts.take k).map (· + w) ∧ ∀ x ∈ acts.drop k, x + w ≤ clk

/-- The times kept in the channel cover the history. -/
structure TInv (p : Times) (s : Sim) : Prop where
  gaps : ∀ e ∈ s.hist, ∀ a, Exists p a → ∀ y ∈ bound p e.cmd e.addr a,
    (e.time : Int) + y.2 ≤ (s.chan.at' a).timing y.1
  apart : s.hist.Pairwise (Apart p)
  four : ∀ r, WindowOk 4 p.tFAW.toNat s.clk (s.chan.fourAw r) (activations r s.hist)
  fourHist : Window 4 p.tFAW s.hist
  thirtyTwo : p.gddr → ∀ r, WindowOk 32 p.t32AW.toNat s.clk (s.chan.thirtyTwoAw r) (activations r s.hist)
  thirtyTwoHist : p.gddr → Window 32 p.t32AW s.hist

theorem tinv_init (p : Times) : TInv p .init :=
  { gaps := by simp [Sim.init]
    apart := by simp [Sim.init]
    four := fun r => ⟨0, by omega, by omega, by simp [Sim.init, Chan.init], by simp [Sim.init, activations]⟩
    fourHist := fun r i x y h => by simp [Sim.init, activations] at h
    thirtyTwo := fun _ r => ⟨0, by omega, by omega, by simp [Sim.init, Chan.init], by simp [Sim.init, activations]⟩
    thirtyTwoHist := fun _ r i x y h => by simp [Sim.init, activations] at h }

/-- One activation: the window holds, and the list covers the history again. -/
theorem window_push {n w clk : Nat} {wi : Int} {l acts : List Nat} (hn : 0 < n) (h : WindowOk n w clk l acts)
    (hr : windowReady n l clk) (hl : later clk wi = clk + w) :
    WindowOk n w clk (pushWindow l clk wi) (clk :: acts) ∧ ∀ x, acts[n - 1]? = some x → x + w ≤ clk := by
  obtain ⟨k, hkn, hka, hk, hd⟩ := h
  have hlen : l.length = k := by
    have := congrArg List.length hk
    simpa [List.length_take, Nat.min_eq_left hka] using this
  have hlast : ∀ t l', l = t :: l' → 0 < k ∧ acts[k - 1]? = some (t - w) ∧ w ≤ t ∧
      l'.reverse = (acts.take (k - 1)).map (· + w) := by
    intro t l' he
    have hk0 : 0 < k := by rw [← hlen, he]; simp
    obtain ⟨k, rfl⟩ := Nat.exists_eq_add_of_lt hk0
    simp only [Nat.zero_add, Nat.add_sub_cancel] at *
    have hk' : k < acts.length := by omega
    rw [he, List.reverse_cons, List.take_succ_eq_append_getElem hk', List.map_append] at hk
    obtain ⟨h1, h2⟩ := List.append_inj' hk (by simp)
    simp only [List.map_cons, List.map_nil, List.cons.injEq, and_true] at h2
    exact ⟨hk0, by rw [List.getElem?_eq_getElem hk']; congr 1; omega, by omega, h1⟩
  have hmem : ∀ i x, k ≤ i → acts[i]? = some x → x + w ≤ clk := by
    intro i x hi hx
    refine hd x ?_
    rw [List.mem_iff_getElem?]
    exact ⟨i - k, by rw [List.getElem?_drop, Nat.add_sub_cancel' hi]; exact hx⟩
  refine ⟨?_, ?_⟩
  · cases l with
    | nil =>
      have hk0 : k = 0 := by simpa using hlen.symm
      subst hk0
      refine ⟨1, by omega, by simp, by simp [pushWindow, hl], ?_⟩
      intro x hx
      exact hd x (by simpa using hx)
    | cons t l' =>
      obtain ⟨hk0, hx, hw, hrev⟩ := hlast t l' rfl
      by_cases ht : t ≤ clk
      · refine ⟨k, hkn, by simp; omega, ?_, ?_⟩
        · simp only [pushWindow, if_pos ht, List.reverse_append, List.reverse_cons, List.reverse_nil, List.nil_append,
            List.singleton_append, hrev, hl]
          obtain ⟨k, rfl⟩ := Nat.exists_eq_add_of_lt hk0
          simp
        · intro x hx'
          obtain ⟨k, rfl⟩ := Nat.exists_eq_add_of_lt hk0
          simp only [Nat.zero_add, Nat.add_sub_cancel, List.drop_succ_cons] at *
          obtain ⟨i, hi⟩ := List.mem_iff_getElem?.1 hx'
          rw [List.getElem?_drop] at hi
          by_cases hi0 : i = 0
          · subst hi0
            rw [Nat.add_zero, hx] at hi
            cases hi; omega
          · exact hmem (k + i) x (by omega) hi
      · have hlt : k < n := by
          simp only [windowReady, Bool.not_eq_true', Bool.and_eq_false_iff, decide_eq_false_iff_not] at hr
          rw [hlen] at hr
          omega
        refine ⟨k + 1, by omega, by simp; omega, ?_, ?_⟩
        · simp only [pushWindow, if_neg ht, List.reverse_append, List.reverse_cons, List.reverse_nil, List.nil_append,
            List.singleton_append, hl, List.take_succ_cons, List.map_cons]
          rw [← List.reverse_cons, hk]
        · intro x hx'; exact hd x (by simpa using hx')
  · intro x hx
    by_cases hkn' : k = n
    · subst hkn'
      cases l with
      | nil => simp at hlen; omega
      | cons t l' =>
        obtain ⟨_, hx', hw, _⟩ := hlast t l' rfl
        rw [hx'] at hx
        simp only [windowReady, Bool.not_eq_true', Bool.and_eq_false_iff, decide_eq_false_iff_not, hlen] at hr
        cases hx; omega
    · exact hmem (n - 1) x (by omega) hx

theorem WindowOk.mono {n w clk clk' : Nat} {l acts : List Nat} (h : WindowOk n w clk l acts) (hc : clk ≤ clk') :
    WindowOk n w clk' l acts := by
  obtain ⟨k, h1, h2, h3, h4⟩ := h
  exact ⟨k, h1, h2, h3, fun x hx => Nat.le_trans (h4 x hx) hc⟩

theorem activations_cons (clk : Nat) (x : Command) (r : Nat) (h : List Event) :
    activations r (eventOf clk x :: h) =
      if x.cmd = .act ∧ x.addr.rank = r then clk :: activations r h else activations r h := by
  unfold activations
  by_cases hc : x.cmd = .act ∧ x.addr.rank = r
  · rw [if_pos hc, List.filter_cons_of_pos (by simp only [decide_eq_true_eq]; exact hc)]; rfl
  · rw [if_neg hc, List.filter_cons_of_neg (by simp only [decide_eq_true_eq]; exact hc)]

theorem window_next {n : Nat} {wi : Int} {clk : Nat} {x : Command} {h : List Event} (hn : 0 < n) (hw : 0 ≤ wi)
    (hh : Window n wi h)
    (hx : x.cmd = .act → ∀ t, (activations x.addr.rank h)[n - 1]? = some t → t + wi.toNat ≤ clk) :
    Window n wi (eventOf clk x :: h) := by
  intro r i a b hb ha
  rw [activations_cons] at ha hb
  split at ha
  · rename_i hc
    rw [if_pos hc] at hb
    cases i with
    | zero =>
      obtain ⟨m, rfl⟩ := Nat.exists_eq_add_of_lt hn
      simp only [Nat.zero_add, List.getElem?_cons_succ] at ha
      simp only [List.getElem?_cons_zero, Option.some.injEq] at hb
      have := hx hc.1 a (by rw [hc.2]; simpa using ha)
      omega
    | succ i =>
      rw [show i + 1 + n = i + n + 1 by omega] at ha
      simp only [List.getElem?_cons_succ] at ha hb
      exact hh r i a b hb ha
  · rename_i hc
    rw [if_neg hc] at hb
    exact hh r i a b hb ha

theorem tinv_issue {p : Times} (hp : Sane p) {s : Sim} (hi : Inv p s) (ht : TInv p s)
    (hclk : s.clk < 9223372036854775808) {x : Command} (hx : Ready p s.chan s.clk x) {ch : Chan}
    (h : s.chan.update p x s.clk = .ok ch) : TInv p { s with chan := ch, hist := eventOf s.clk x :: s.hist } := by
  obtain ⟨ch', h0, _, _, h3, h4, h5, h6, _⟩ := update_ok hi hx
  rw [h0] at h; cases h
  have hf := hp.fields
  have hne : x.cmd.isRead ∨ x.cmd.isWrite → x.cmd ≠ .refresh ∧ x.cmd ≠ .srefIn := fun h => by
    constructor <;> intro h' <;> simp [h', Cmd.isRead, Cmd.isWrite] at h
  have hrow : ∀ (hk : x.cmd.isRead ∨ x.cmd.isWrite), ∃ e ∈ s.hist, e.cmd = .act ∧ SameBank e.addr x.addr := by
    intro hk
    have he := hx.here (hne hk)
    have ho := hx.accepts x.addr he (by simp [checks, (hne hk).1, (hne hk).2, SameBank])
    have ho : (s.chan.at' x.addr).state = .opened := by
      cases hc : x.cmd <;> simp [hc, Cmd.isRead, Cmd.isWrite] at hk <;> rw [hc] at ho <;> exact ho
    obtain ⟨r, h1, _⟩ := hi.opened he ho
    exact openRow_some h1
  have hlow : ∀ d : Int, (x.cmd.isRead ∨ x.cmd.isWrite) → (x.cmd, d) ∈ p.sameBank .act → d ≤ s.clk := by
    intro d hk hd
    obtain ⟨e, he, hc, hs⟩ := hrow hk
    have hex := hx.here (hne hk)
    have := ht.gaps e he x.addr hex (x.cmd, d) (by
      rw [hc]; simp only [bound, Cmd.isRank, Bool.false_eq_true, if_false, hs.1, hs.2.1, hs.2.2, if_true]; exact hd)
    have hdue := hx.due x.addr hex (by simp [checks, (hne hk).1, (hne hk).2, SameBank])
    have : (e.time : Int) + d ≤ s.clk := Int.le_trans this (by exact_mod_cast hdue)
    omega
  have hlate : ∀ a, ∀ y ∈ bound p x.cmd x.addr a, ((later s.clk y.2 : Nat) : Int) = s.clk + y.2 := by
    intro a y hy
    obtain ⟨hu, hl⟩ := bound_good hp x.cmd x.addr a y hy
    refine later_eq ?_ (by omega)
    rcases hl with hl | ⟨hk, hl⟩ | ⟨hk, hl⟩
    · omega
    · have := hlow p.toRead (.inl hk) (by
        cases hc : x.cmd <;> simp [hc, Cmd.isRead] at hk <;> simp [Times.sameBank, Times.columns, actToRead_eq])
      omega
    · have := hlow p.toWrite (.inr hk) (by
        cases hc : x.cmd <;> simp [hc, Cmd.isWrite] at hk <;> simp [Times.sameBank, Times.columns, actToWrite_eq])
      omega
  have hw4 : later s.clk p.tFAW = s.clk + p.tFAW.toNat := by
    have := later_eq (clk := s.clk) (d := p.tFAW) (by omega) (by omega); omega
  have hw32 : later s.clk p.t32AW = s.clk + p.t32AW.toNat := by
    have := later_eq (clk := s.clk) (d := p.t32AW) (by omega) (by omega); omega
  have hr4 : x.cmd = .act → windowReady 4 (s.chan.fourAw x.addr.rank) s.clk := fun hc => by
    have := hx.window hc; simp only [activationOk, Bool.and_eq_true] at this; exact this.1
  have hr32 : p.gddr → x.cmd = .act → windowReady 32 (s.chan.thirtyTwoAw x.addr.rank) s.clk := fun hg hc => by
    have := hx.window hc; simp only [activationOk, Bool.and_eq_true, hg] at this; simpa using this.2
  refine { gaps := ?_, apart := ?_, four := ?_, fourHist := ?_, thirtyTwo := ?_, thirtyTwoHist := ?_ }
  · intro e he a ha y hy
    rcases List.mem_cons.1 he with rfl | he
    · have h1 := h4 a ha y hy
      have h2 := hlate a y hy
      show (s.clk : Int) + y.2 ≤ (ch.at' a).timing y.1
      omega
    · have h1 := ht.gaps e he a ha y hy
      have h2 := h3 a ha y.1
      show (e.time : Int) + y.2 ≤ (ch.at' a).timing y.1
      omega
  · refine List.pairwise_cons.2 ⟨?_, ht.apart⟩
    intro d hd a ha hc y hy he
    have h1 := ht.gaps d hd a ha y hy
    have h2 := hx.due a ha hc
    rw [he] at h1
    show (d.time : Int) + y.2 ≤ s.clk
    have : (eventOf s.clk x).cmd = x.cmd := rfl
    rw [this] at h1
    omega
  · intro r
    show WindowOk 4 _ s.clk (ch.fourAw r) _
    rw [h5, activations_cons]
    by_cases hc : x.cmd = .act
    · rw [if_pos hc]
      by_cases hr : x.addr.rank = r
      · rw [if_pos ⟨hc, hr⟩]
        subst hr
        simp only [updateActivation, if_true]
        exact (window_push (by omega) (ht.four _) (hr4 hc) hw4).1
      · rw [if_neg (fun h => hr h.2)]
        simp only [updateActivation, if_neg (Ne.symm hr)]
        exact ht.four r
    · rw [if_neg hc, if_neg (fun h => hc h.1)]
      exact ht.four r
  · exact window_next (by omega) (by omega) ht.fourHist fun hc t h =>
      (window_push (by omega) (ht.four _) (hr4 hc) hw4).2 t h
  · intro hg r
    show WindowOk 32 _ s.clk (ch.thirtyTwoAw r) _
    rw [h6, activations_cons]
    by_cases hc : x.cmd = .act
    · rw [if_pos hc]
      by_cases hr : x.addr.rank = r
      · rw [if_pos ⟨hc, hr⟩]
        subst hr
        simp only [updateActivation, hg, Bool.and_true, decide_true, if_true]
        exact (window_push (by omega) (ht.thirtyTwo hg _) (hr32 hg hc) hw32).1
      · rw [if_neg (fun h => hr h.2)]
        simp only [updateActivation, hg, Bool.and_true, decide_eq_true_eq, if_neg (Ne.symm hr)]
        exact ht.thirtyTwo hg r
    · rw [if_neg hc, if_neg (fun h => hc h.1)]
      exact ht.thirtyTwo hg r
  · exact fun hg => window_next (by omega) (by omega) (ht.thirtyTwoHist hg) fun hc t h =>
      (window_push (by omega) (ht.thirtyTwo hg _) (hr32 hg hc) hw32).2 t h

theorem tinv_step {p : Times} (hp : Sane p) {s s' : Sim} {o : Op} (hi : Inv p s) (ht : TInv p s) (ho : o.Fits p)
    (hclk : s.clk < 9223372036854775808) (h : s.step p o = .ok s') : TInv p s' := by
  cases o with
  | wait n =>
    cases h
    exact { ht with
      four := fun r => (ht.four r).mono (Nat.le_add_right ..)
      thirtyTwo := fun hg r => (ht.thirtyTwo hg r).mono (Nat.le_add_right ..) }
  | note c =>
    cases h
    exact { ht with }
  | ask c =>
    rcases step_ask h with ⟨_, rfl⟩ | ⟨x, ch, h1, h2, rfl⟩
    · exact ht
    · exact tinv_issue hp hi ht hclk (ready_of ho h1) h2

theorem step_clk {p : Times} {s s' : Sim} {o : Op} (h : s.step p o = .ok s') : s.clk ≤ s'.clk := by
  cases o with
  | wait n => cases h; exact Nat.le_add_right ..
  | note c => cases h; exact Nat.le_refl _
  | ask c =>
    rcases step_ask h with ⟨_, rfl⟩ | ⟨x, ch, h1, h2, rfl⟩
    · exact Nat.le_refl _
    · exact Nat.le_refl _

theorem exec_clk {p : Times} {l : List Op} {s s' : Sim} (h : s.exec p l = .ok s') : s.clk ≤ s'.clk := by
  induction l generalizing s with
  | nil => cases h; exact Nat.le_refl _
  | cons o l ih =>
    simp only [Sim.exec, bind, Except.bind] at h
    cases hs : s.step p o with
    | error e => rw [hs] at h; cases h
    | ok s1 => rw [hs] at h; exact Nat.le_trans (step_clk hs) (ih h)

theorem tinv_exec {p : Times} (hp : Sane p) {l : List Op} {s s' : Sim} (hi : Inv p s) (ht : TInv p s)
    (ho : ∀ o ∈ l, o.Fits p) (h : s.exec p l = .ok s') (hclk : s'.clk < 9223372036854775808) : TInv p s' := by
  induction l generalizing s with
  | nil => cases h; exact ht
  | cons o l ih =>
    have hc := exec_clk h
    simp only [Sim.exec, bind, Except.bind] at h
    cases hs : s.step p o with
    | error e => rw [hs] at h; cases h
    | ok s1 =>
      rw [hs] at h
      have ho0 := ho o (List.mem_cons_self ..)
      exact ih (inv_step hi ho0 hs) (tinv_step hp hi ht ho0 (by omega) hs)
        (fun o h => ho o (List.mem_cons_of_mem _ h)) h

end RadSim.DramSim
