import Verif.Lemmas.MvmRun
import Verif.Spec.MlpDesign

/-! # Invariants of dispatcher and collector -/

namespace RadSim.Mlp

open AddDesign (Fifo FifoCfg FifoErr)

/-- A dispatcher with its driver: what it sent, what it holds and what is on the way to it are the lines so far. -/
structure Feeds (size : Nat) (lines : List Vec) (d : Feeder) (f : Fifo Vec) (sent : List Vec) : Prop where
  holds : ∃ z, Holds (dataCfg size) z f f.mem
  order : sent ++ f.mem ++ (if d.wen then [d.wdata] else []) = lines.take d.written
  count : d.written ≤ lines.length
  room : f.mem.length + (if d.wen then 1 else 0) ≤ size

/-- The vector offered is the oldest one held. -/
theorem Feeds.offer {size : Nat} {lines : List Vec} {d : Feeder} {f : Fifo Vec} {sent : List Vec}
    (h : Feeds size lines d f sent) (hl : ∀ v ∈ lines, 0 < v.length) : dispOffer f = f.mem.head? := by
  obtain ⟨z, hz⟩ := h.holds
  cases e : f.mem with
  | nil =>
    have : f.empty = true := by rw [hz.empty, e]; rfl
    simp [dispOffer, this]
  | cons v m =>
    have hm : v ∈ lines := by
      have := h.order
      rw [e] at this
      apply List.mem_of_mem_take (i := d.written)
      rw [← this]
      simp
    have h1 : f.empty = false := by rw [hz.empty, e]; rfl
    have h2 : f.rdata = v := by rw [hz.rdata, e]; rfl
    simp [dispOffer, h1, h2, hl v hm]

theorem feeds_init {size : Nat} (hs : 2 ≤ size) (lines : List Vec) :
    Feeds size lines .reset (.reset []) [] where
  holds := ⟨[], holds_reset _ (by simp only [dataCfg]; omega)⟩
  order := by simp [Feeder.reset, Fifo.reset]
  count := Nat.zero_le _
  room := by simp [Feeder.reset, Fifo.reset]

/-- An edge of both clocks. -/
theorem Feeds.tick {size : Nat} {lines : List Vec} {d : Feeder} {f : Fifo Vec} {sent : List Vec}
    (h : Feeds size lines d f sent) (lanes : Nat) (hl : ∀ v ∈ lines, 0 < v.length) (r : Bool) :
    ∃ f', dispTick size lanes d r f = .ok f' ∧
      f'.mem = (if r then f.mem.tail else f.mem) ++ (if d.wen then [d.wdata] else []) ∧
      Feeds size lines (d.tick lines (dispRdy f)) f' (sent ++ if r then (dispOffer f).toList else []) := by
  have ho := h.offer hl
  obtain ⟨z, hz⟩ := h.holds
  have hroom := h.room
  have hren : ((dispOffer f).isSome && r) = true → f.mem ≠ [] := by
    rw [ho]; cases f.mem <;> simp
  have key : dispTick size lanes d r f = .ok (Fifo.show (dataCfg size) (List.replicate lanes 0)
      ((if r then f.mem.tail else f.mem) ++ (if d.wen then [d.wdata] else []))) := by
    unfold dispTick
    rw [tick_holds (dataCfg size) (List.replicate lanes 0) hz hren (by
      intro hw
      rw [hw, if_pos rfl] at hroom
      simp only [dataCfg]
      split
      · rename_i hc
        have := hren hc
        have : 0 < f.mem.length := List.length_pos_of_ne_nil this
        rw [List.length_tail]
        omega
      · omega)]
    rw [ho]
    congr 2
    unfold AddDesign.after
    cases f.mem <;> cases r <;> cases d.wen <;> simp
  refine ⟨_, key, rfl, ?_⟩
  have hsent : (sent ++ if r then (dispOffer f).toList else []) ++ (if r then f.mem.tail else f.mem) = sent ++ f.mem := by
    rw [ho]; cases r <;> cases f.mem <;> simp
  have hlen : (if r then f.mem.tail else f.mem).length ≤ f.mem.length := by cases r <;> simp
  have haf : f.almostFull = decide (size - 1 ≤ f.mem.length) := hz.almostFull
  by_cases hc : dispRdy f = true ∧ d.written < lines.length
  · have hd : d.tick lines (dispRdy f) = ⟨true, lines.getD d.written [], d.written + 1⟩ := by
      unfold Feeder.tick
      rw [if_pos (by simp [hc.1, hc.2])]
    rw [hd]
    refine ⟨⟨_, holds_show ..⟩, ?_, hc.2, ?_⟩
    · simp only [Fifo.show, if_true]
      rw [← List.append_assoc, hsent, h.order, List.take_add_one, List.getD_eq_getElem?_getD, List.getElem?_eq_getElem hc.2]
      rfl
    · have h1 := hc.1
      simp only [dispRdy, haf, Bool.not_eq_true', decide_eq_false_iff_not] at h1
      simp only [Fifo.show, List.length_append, if_true]
      cases hw : d.wen <;> simp <;> omega
  · have hd : d.tick lines (dispRdy f) = { d with wen := false } := by
      unfold Feeder.tick
      rw [if_neg (by simpa using hc)]
    rw [hd]
    refine ⟨⟨_, holds_show ..⟩, ?_, h.count, ?_⟩
    · simp only [Fifo.show, Bool.false_eq_true, if_false, List.append_nil]
      rw [← List.append_assoc, hsent, h.order]
    · simp only [Fifo.show, List.length_append, Bool.false_eq_true, if_false]
      cases hw : d.wen <;> simp [hw] at hroom ⊢ <;> omega

/-- The collector with its driver: what was taken has been read or is held, and the driver has compared what it has read. -/
structure Checks (size : Nat) (golden : List Vec) (f : Fifo Vec) (k : Checker) (taken : List Vec) : Prop where
  holds : ∃ z, Holds (dataCfg size) z f f.mem
  room : f.mem.length ≤ size - 1
  read : ∃ popped, taken = popped ++ f.mem ∧ k.read = min popped.length golden.length ∧
    k.mistake = decide (popped.take golden.length ≠ golden.take popped.length)
  report : ∀ r, k.report = some r → golden.length ≤ k.read ∧ r = !k.mistake

theorem checks_init {size : Nat} (hs : 2 ≤ size) (golden : List Vec) :
    Checks size golden (.reset []) .reset [] where
  holds := ⟨[], holds_reset _ (by simp only [dataCfg]; omega)⟩
  room := Nat.zero_le _
  read := ⟨[], by simp [Fifo.reset, Checker.reset]⟩
  report := by simp [Checker.reset]

/-- Vectors of one length differ iff some element does. -/
theorem differs {n : Nat} {v w : Vec} (hv : v.length = n) (hw : w.length = n) :
    (List.range v.length).any (fun i => decide (v.getD i 0 ≠ w.getD i 0)) = decide (v ≠ w) := by
  rw [Bool.eq_iff_iff, List.any_eq_true, decide_eq_true_eq]
  constructor
  · rintro ⟨i, -, hi⟩ rfl
    simp at hi
  · intro hne
    by_contra hc
    apply hne
    apply List.ext_getElem (by omega)
    intro i h1 h2
    by_contra hx
    apply hc
    refine ⟨i, List.mem_range.2 h1, ?_⟩
    simpa [List.getD_eq_getElem?_getD, List.getElem?_eq_getElem h1, List.getElem?_eq_getElem h2] using hx

/-- An edge of both clocks. -/
theorem Checks.tick {size lanes : Nat} {golden : List Vec} {f : Fifo Vec} {k : Checker} {taken : List Vec}
    (h : Checks size golden f k taken) (h0 : 0 < lanes) (hg : ∀ v ∈ golden, v.length = lanes)
    (ht : ∀ v ∈ taken, v.length = lanes) (beat : Option Vec) :
    ∃ f', collTick size lanes beat f = .ok f' ∧
      Checks size golden f' (k.tick golden f) (taken ++ if collReady f then beat.toList else []) := by
  obtain ⟨z, hz⟩ := h.holds
  have hroom := h.room
  have he : f.empty = f.mem.isEmpty := hz.empty
  have haf : f.almostFull = decide (size - 1 ≤ f.mem.length) := hz.almostFull
  have key : collTick size lanes beat f = .ok (Fifo.show (dataCfg size) (List.replicate lanes 0)
      (f.mem.tail ++ if collReady f then beat.toList else [])) := by
    unfold collTick
    rw [tick_holds (dataCfg size) (List.replicate lanes 0) hz (by rw [he]; cases f.mem <;> simp) (by
      intro hw
      simp only [Bool.and_eq_true, collReady, haf, Bool.not_eq_true', decide_eq_false_iff_not] at hw
      simp only [dataCfg]
      have : f.mem.tail.length ≤ f.mem.length := by simp
      split <;> omega)]
    congr 2
    unfold AddDesign.after
    rw [he]
    cases f.mem <;> cases beat <;> cases collReady f <;> simp
  refine ⟨_, key, ⟨⟨_, holds_show ..⟩, ?_, ?_, ?_⟩⟩
  · simp only [Fifo.show, collReady, haf]
    by_cases hc : size - 1 ≤ f.mem.length
    · simp [hc]; omega
    · cases beat <;> simp [hc] <;> omega
  · obtain ⟨p, hp, hr, hm⟩ := h.read
    cases e : f.mem with
    | nil =>
      refine ⟨p, by simp [Fifo.show, hp, e], ?_⟩
      unfold Checker.tick
      rw [he, e]
      split
      · exact ⟨hr, hm⟩
      · split
        · simp only [List.isEmpty_nil, Bool.not_true, Bool.false_and, Bool.false_eq_true, if_false]
          exact ⟨hr, hm⟩
        · exact ⟨hr, hm⟩
    | cons v m =>
      refine ⟨p ++ [v], by simp [Fifo.show, hp, e], ?_⟩
      have hv : v.length = lanes := ht v (by rw [hp, e]; simp)
      have hd : f.rdata = v := by rw [hz.rdata, e]; rfl
      by_cases hlt : p.length < golden.length
      · have hk : k.read = p.length := by omega
        have hnone : k.report = none := by
          cases er : k.report with
          | none => rfl
          | some r => have := (h.report r er).1; omega
        have hw : (golden[p.length]).length = lanes := hg _ (List.getElem_mem hlt)
        unfold Checker.tick
        rw [hnone, he, e, hd, hk]
        simp only [Option.isSome_none, Bool.false_eq_true, if_false, hlt, if_true, List.isEmpty_cons, Bool.not_false,
          Bool.true_and, hv, h0, decide_true, List.length_append, List.length_singleton]
        refine ⟨by omega, ?_⟩
        have hgd : golden.getD p.length [] = golden[p.length] := by
          simp [List.getD_eq_getElem?_getD, List.getElem?_eq_getElem hlt]
        have hdf := differs (n := lanes) hv hw
        rw [hv] at hdf
        rw [hgd, hdf, hm, List.take_of_length_le (l := p) (by omega), List.take_of_length_le (l := p ++ [v]) (by simp; omega),
          List.take_add_one, List.getElem?_eq_getElem hlt, Option.toList_some]
        rw [Bool.eq_iff_iff]
        simp only [Bool.or_eq_true, decide_eq_true_eq, ne_eq]
        rw [← not_and_or, not_iff_not]
        constructor
        · rintro ⟨a, b⟩; rw [← a, b]
        · intro hx
          have := List.append_inj hx (by simp; omega)
          exact ⟨this.1, by simpa using this.2⟩
      · have hk : ¬ k.read < golden.length := by omega
        have : (k.tick golden f).read = k.read ∧ (k.tick golden f).mistake = k.mistake := by
          unfold Checker.tick
          split
          · exact ⟨rfl, rfl⟩
          · exact ⟨rfl, rfl⟩
        rw [this.1, this.2, hr, hm, List.take_append_of_le_length (by omega), List.take_of_length_le (l := golden) (by omega),
          List.take_of_length_le (l := golden) (by simp; omega)]
        refine ⟨by simp; omega, rfl⟩
  · intro r
    unfold Checker.tick
    split
    · exact h.report r
    · rename_i hn
      split
      · split
        · simp
        · intro hx; rw [hx] at hn; simp at hn
      · rename_i hk
        intro hx
        simp only [Option.some.injEq] at hx
        exact ⟨by simp only; omega, hx.symm⟩

/-- Driver and dispatcher at any moment, if they have the same edges. -/
theorem feeds_all {size lanes : Nat} (hs : 2 ≤ size) {lines : List Vec} (hl : ∀ v ∈ lines, 0 < v.length) {t : Nat → DispIn}
    (ht : ∀ n, (t n).drive = (t n).edge) : ∀ n, ∃ d f sent, dispRun size lanes lines t n = .ok (d, f, sent) ∧
      Feeds size lines d f sent
  | 0 => ⟨_, _, _, rfl, feeds_init hs lines⟩
  | n + 1 => by
    obtain ⟨d, f, sent, e, h⟩ := feeds_all (lanes := lanes) hs hl ht n
    simp only [dispRun, e, ht]
    cases he : (t n).edge
    · exact ⟨_, _, _, rfl, h⟩
    · obtain ⟨f', e', -, h'⟩ := h.tick lanes hl (t n).tready
      simp only [if_true, e']
      exact ⟨_, _, _, rfl, h'⟩

/-- Collector and driver at any moment, if they have the same edges. -/
theorem checks_all {size lanes : Nat} (hs : 2 ≤ size) (h0 : 0 < lanes) {golden : List Vec}
    (hg : ∀ v ∈ golden, v.length = lanes) {t : Nat → CollIn} (hb : ∀ n v, (t n).beat = some v → v.length = lanes)
    (ht : ∀ n, (t n).drive = (t n).edge) : ∀ n, ∃ f k taken, collRun size lanes golden t n = .ok (f, k, taken) ∧
      Checks size golden f k taken ∧ ∀ v ∈ taken, v.length = lanes
  | 0 => ⟨_, _, _, rfl, checks_init hs golden, by simp⟩
  | n + 1 => by
    obtain ⟨f, k, taken, e, h, hl⟩ := checks_all hs h0 hg hb ht n
    simp only [collRun, e, ht]
    cases he : (t n).edge
    · exact ⟨_, _, _, rfl, h, hl⟩
    · obtain ⟨f', e', h'⟩ := h.tick h0 hg hl (t n).beat
      simp only [if_true, e']
      refine ⟨_, _, _, rfl, h', fun v hv => ?_⟩
      rcases List.mem_append.1 hv with hv | hv
      · exact hl v hv
      · split at hv
        · exact hb n v (by simpa using hv)
        · simp at hv

/-- How far a dispatcher is from having sent all lines. -/
def toSend (lines : List Vec) (d : Feeder) (f : Fifo Vec) (sent : List Vec) : Nat :=
  3 * (lines.length - sent.length) + if f.mem ≠ [] then 0 else if d.wen then 1 else 2

/-- It comes nearer at each edge at which the NoC takes a beat, and never goes back. -/
theorem Feeds.nearer {size : Nat} {lines : List Vec} {d : Feeder} {f : Fifo Vec} {sent : List Vec}
    (h : Feeds size lines d f sent) (hs : 2 ≤ size) (lanes : Nat) (hl : ∀ v ∈ lines, 0 < v.length) {r : Bool} {f' : Fifo Vec}
    (e : dispTick size lanes d r f = .ok f') :
    toSend lines (d.tick lines (dispRdy f)) f' (sent ++ if r then (dispOffer f).toList else []) +
      (if r ∧ sent.length < lines.length then 1 else 0) ≤ toSend lines d f sent := by
  obtain ⟨f'', e', hm, h'⟩ := h.tick lanes hl r
  rw [e] at e'
  cases e'
  have ho := h.offer hl
  have hlen := congrArg List.length h.order
  have hcount := h.count
  simp only [List.length_append, List.length_take] at hlen
  unfold toSend
  rw [hm, ho]
  cases hmem : f.mem with
  | cons v m =>
    rw [hmem] at hlen
    simp only [List.length_cons] at hlen
    have : sent.length < lines.length := by split at hlen <;> omega
    cases r
    · simp
    · simp only [List.tail_cons, List.head?_cons, Option.toList_some, if_true, List.length_append, List.length_singleton,
        this, and_self]
      generalize (d.tick lines (dispRdy f)).wen = b
      cases b <;> repeat' split
      all_goals simp_all <;> omega
  | nil =>
    rw [hmem] at hlen
    cases hw : d.wen
    · simp only [hw, Bool.false_eq_true, if_false, List.length_nil] at hlen
      by_cases hlt : sent.length < lines.length
      · obtain ⟨z, hz⟩ := h.holds
        have hr : dispRdy f = true := by
          simp only [dispRdy, hz.almostFull, hmem, dataCfg, List.length_nil]
          simp; omega
        have hd : (d.tick lines (dispRdy f)).wen = true := by
          unfold Feeder.tick
          rw [hr, if_pos (by simp; omega)]
        cases r <;> simp [hd, hlt]
      · cases r <;> simp [hlt] <;> split <;> omega
    · cases r <;> simp <;> split <;> omega

/-- How far the driver is from its report. -/
def toReport (golden : List Vec) (k : Checker) : Nat := if k.report.isSome then 0 else golden.length - k.read + 1

/-- When enough was taken, it comes nearer at each edge. -/
theorem Checks.nearer {size lanes : Nat} {golden : List Vec} {f : Fifo Vec} {k : Checker} {taken : List Vec}
    (h : Checks size golden f k taken) (h0 : 0 < lanes) (ht : ∀ v ∈ taken, v.length = lanes)
    (hn : golden.length ≤ taken.length) : toReport golden (k.tick golden f) ≤ toReport golden k - 1 := by
  obtain ⟨z, hz⟩ := h.holds
  obtain ⟨p, hp, hr, -⟩ := h.read
  unfold toReport Checker.tick
  cases er : k.report with
  | some r => simp [er]
  | none =>
    by_cases hk : k.read < golden.length
    · cases e : f.mem with
      | nil =>
        rw [e, List.append_nil] at hp
        subst hp
        omega
      | cons v m =>
        have hv : v.length = lanes := ht v (by rw [hp, e]; simp)
        have hd : f.rdata = v := by rw [hz.rdata, e]; rfl
        have he : f.empty = false := by rw [hz.empty, e]; rfl
        simp [hk, he, hd, hv, h0]
        omega
    · simp [hk]

/-- It is not far then. -/
theorem Checks.near {size : Nat} (hs : 2 ≤ size) {golden : List Vec} {f : Fifo Vec} {k : Checker} {taken : List Vec}
    (h : Checks size golden f k taken) (hn : golden.length ≤ taken.length) : toReport golden k ≤ size := by
  obtain ⟨p, hp, hr, -⟩ := h.read
  have := h.room
  have hl := congrArg List.length hp
  simp only [List.length_append] at hl
  unfold toReport
  split <;> omega

/-- What is reported. -/
theorem Checks.says {size : Nat} {golden : List Vec} {f : Fifo Vec} {k : Checker} {taken : List Vec}
    (h : Checks size golden f k taken) {r : Bool} (hr : k.report = some r) : r = decide (taken.take golden.length = golden) := by
  obtain ⟨h1, h2⟩ := h.report r hr
  obtain ⟨p, hp, hk, hm⟩ := h.read
  have hle : golden.length ≤ p.length := by omega
  rw [h2, hm, hp, List.take_append_of_le_length hle, List.take_of_length_le (l := golden) hle]
  simp

end RadSim.Mlp
