import Verif.Lemmas.DramTime

/-! # C48, C49: the commands on a DRAM channel -/

namespace RadSim.DramSim

open Chan

/-- **C48.** Whatever was asked before: a command that the channel declares ready can be applied. -/
theorem C48_ready_applies (p : Times) (ops : List Op) (hops : ∀ o ∈ ops, o.Fits p) (s : Sim)
    (h : Sim.init.exec p ops = .ok s) (c x : Command) (hc : Fits p c)
    (hx : s.chan.getReady p c s.clk = .ok (some x)) : ∃ ch, s.chan.update p x s.clk = .ok ch := by
  obtain ⟨ch, h, _⟩ := update_ok (inv_exec (inv_init p) hops h) (ready_of hc hx)
  exact ⟨ch, h⟩

/-- **C48.** When asking for a command ends the program: it is none that is ever asked for in a queue, or a refresh,
entry or exit for a rank in self-refresh. -/
theorem C48_abort (p : Times) (ops : List Op) (hops : ∀ o ∈ ops, o.Fits p) (s : Sim)
    (h : Sim.init.exec p ops = .ok s) (c : Command) (hc : Fits p c) (e : Stop) (he : s.step p (.ask c) = .error e) :
    c.cmd = .act ∨ c.cmd = .pre ∨ c.cmd = .srefOut ∨
      (asleep c.addr.rank s.hist = true ∧ (c.cmd = .refresh ∨ c.cmd = .refBank ∨ c.cmd = .srefIn)) := by
  have hi := inv_exec (inv_init p) hops h
  have key : ∀ a, Exists p a → a.rank = c.addr.rank → (s.chan.at' a).required c = .error e →
      c.cmd = .act ∨ c.cmd = .pre ∨ c.cmd = .srefOut ∨
        (asleep c.addr.rank s.hist = true ∧ (c.cmd = .refresh ∨ c.cmd = .refBank ∨ c.cmd = .srefIn)) := by
    intro a ha hr hq
    have hsl : (s.chan.at' a).state = .sref → asleep c.addr.rank s.hist = true := fun hs => hr ▸ hi.of_sref ha hs
    cases hs : (s.chan.at' a).state <;> cases hcc : c.cmd <;> simp [Bank.required, hs, hcc] at hq ⊢ <;>
      exact hsl hs
  simp only [Sim.step, bind, Except.bind, pure, Except.pure] at he
  cases hg : s.chan.getReady p c s.clk with
  | ok o =>
    rw [hg] at he
    cases o with
    | none => cases he
    | some x =>
      obtain ⟨ch, hu⟩ := C48_ready_applies p ops hops s h c x hc hg
      simp only [hu] at he
      cases he
  | error e' =>
    rw [hg] at he
    cases he
    unfold getReady at hg
    split at hg
    · obtain ⟨y, hy, hq⟩ := rankReady_error hg
      exact key ⟨c.addr.rank, y.1, y.2, 0, 0⟩ ⟨hc.1, mem_places.1 hy⟩ rfl hq
    · rename_i hr
      simp only [bind, Except.bind, pure, Except.pure] at hg
      cases hb : (s.chan.bank c.addr.rank c.addr.group c.addr.bank).getReady c s.clk with
      | error e' =>
        rw [hb] at hg
        cases hg
        exact key c.addr (hc.2 (by simpa using hr)) rfl (Bank.getReady_error.1 hb)
      | ok o => rw [hb] at hg; cases o <;> cases hg

/-- The requests that do not use self-refresh. -/
def Plain (o : Op) : Prop :=
  ∀ c, o = .ask c → c.cmd.isRead ∨ c.cmd.isWrite ∨ c.cmd = .refresh ∨ c.cmd = .refBank

theorem plain_awake {p : Times} {ops : List Op} {s s' : Sim} (hi : Inv p s) (hops : ∀ o ∈ ops, o.Fits p ∧ Plain o)
    (hs : ∀ r, asleep r s.hist = false) (h : s.exec p ops = .ok s') : ∀ r, asleep r s'.hist = false := by
  induction ops generalizing s with
  | nil => cases h; exact hs
  | cons o l ih =>
    simp only [Sim.exec, bind, Except.bind] at h
    cases hst : s.step p o with
    | error e => rw [hst] at h; cases h
    | ok s1 =>
      rw [hst] at h
      have ho := hops o (List.mem_cons_self ..)
      refine ih (inv_step hi ho.1 hst) (fun o h => hops o (List.mem_cons_of_mem _ h)) ?_ h
      intro r
      cases o with
      | wait n => cases hst; exact hs r
      | note c => cases hst; exact hs r
      | ask c =>
        rcases step_ask hst with ⟨_, rfl⟩ | ⟨x, ch, h1, h2, rfl⟩
        · exact hs r
        · have hx : x.cmd ≠ .srefIn := by
            intro hx
            have hc := ho.2 c rfl
            have hok := allowed hi (ready_of ho.1 h1)
            unfold getReady at h1
            split at h1
            · rename_i hr
              rcases rankReady_some (by rw [places_length]; omega) h1 with ⟨y, hy, t, ht, hne, htm, rfl⟩ | ⟨_, _, hx'⟩
              · have := ((Bank.required_ok ht).2.2.1 hr).2
                rcases this with h | h
                · exact hne h
                · rw [h] at hx; cases hx
              · rcases hx' with rfl | ⟨_, h⟩
                · simp [hx, Cmd.isRead, Cmd.isWrite] at hc
                · cases h
            · rename_i hr
              simp only [bind, Except.bind, pure, Except.pure] at h1
              cases hb : (s.chan.bank c.addr.rank c.addr.group c.addr.bank).getReady c s.clk with
              | error e => rw [hb] at h1; cases h1
              | ok o =>
                rw [hb] at h1
                cases o with
                | none => cases h1
                | some z =>
                  obtain ⟨t, ht, _, rfl⟩ := Bank.getReady_some.1 hb
                  dsimp only at h1
                  split at h1
                  · cases h1
                  · cases h1
                    exact ((Bank.required_ok ht).2.2.2 (by simpa using hr)).2 hx
          show asleep r (eventOf s.clk x :: s.hist) = false
          rw [asleep_cons, if_neg hx, hs]
          split
          · split <;> rfl
          · rfl

/-- **C48.** Without self-refresh no sequence of requests ends the program. -/
theorem C48_no_abort (p : Times) (ops : List Op) (hops : ∀ o ∈ ops, o.Fits p ∧ Plain o) :
    ∃ s, Sim.init.exec p ops = .ok s := by
  have key : ∀ (l : List Op) (pre : List Op) (s : Sim), (∀ o ∈ pre ++ l, o.Fits p ∧ Plain o) →
      Sim.init.exec p pre = .ok s → ∃ s', s.exec p l = .ok s' := by
    intro l
    induction l with
    | nil => intro pre s _ _; exact ⟨s, rfl⟩
    | cons o l ih =>
      intro pre s hl hs
      have hpre : ∀ o ∈ pre, o.Fits p ∧ Plain o := fun o h => hl o (List.mem_append_left _ h)
      have ho := hl o (List.mem_append_right _ (List.mem_cons_self ..))
      have hstep : ∃ s1, s.step p o = .ok s1 := by
        cases hst : s.step p o with
        | ok s1 => exact ⟨s1, rfl⟩
        | error e =>
          exfalso
          cases o with
          | wait n => cases hst
          | note c => cases hst
          | ask c =>
            have hc := ho.2 c rfl
            have hsl := plain_awake (inv_init p) hpre (fun _ => rfl) hs c.addr.rank
            rcases C48_abort p pre (fun o h => (hpre o h).1) s hs c ho.1 e hst with h | h | h | h
            · simp [h, Cmd.isRead, Cmd.isWrite] at hc
            · simp [h, Cmd.isRead, Cmd.isWrite] at hc
            · simp [h, Cmd.isRead, Cmd.isWrite] at hc
            · rw [hsl] at h; cases h.1
      obtain ⟨s1, h1⟩ := hstep
      have happ : ∀ (l : List Op) (s s' : Sim), s.exec p l = .ok s' → s.exec p (l ++ [o]) = s'.exec p [o] := by
        intro l
        induction l with
        | nil => intro s s' h; cases h; rfl
        | cons a l ih =>
          intro s s' h
          simp only [Sim.exec, bind, Except.bind, List.cons_append] at h ⊢
          cases ha : s.step p a with
          | error e => rw [ha] at h; cases h
          | ok s2 => rw [ha] at h; exact ih s2 s' h
      obtain ⟨s', h'⟩ := ih (pre ++ [o]) s1 (by simpa using hl) (by
        rw [happ _ _ _ hs]; simp [Sim.exec, h1, bind, Except.bind])
      exact ⟨s', by simp only [Sim.exec, h1, bind, Except.bind]; exact h'⟩
  exact key ops [] .init (by simpa using hops) rfl

/-- **C48.** The commands on the channel follow the state diagram: reads and writes go to the open row, activations to
closed banks, refreshes to ranks with all rows closed. -/
theorem C48_legal (p : Times) (ops : List Op) (hops : ∀ o ∈ ops, o.Fits p) (s : Sim)
    (h : Sim.init.exec p ops = .ok s) : Legal s.hist :=
  (inv_exec (inv_init p) hops h).legal

theorem after_pairwise {R : Event → Event → Prop} {h : List Event} (hp : h.Pairwise R) {e d : Event}
    (ha : After h e d) : R e d ∧ e ∈ h ∧ d ∈ h := by
  obtain ⟨u, v, w, rfl⟩ := ha
  rw [List.append_assoc, List.pairwise_append] at hp
  refine ⟨(List.pairwise_cons.1 hp.2.1).1 d ?_, by simp, by simp⟩
  simp

/-- Where a rule is found in the tables of `Timing`. -/
def table (p : Times) (r : Rel) (b : Cmd) : List (Cmd × Int) :=
  match r with
  | .sameBank => p.sameBank b
  | .sameGroup => p.otherBanks b
  | .sameRank => p.otherGroups b
  | .inRank => if b.isRank then p.sameRank b else p.sameBank b

theorem rule_table {p : Times} {r : Rel} {b c : Cmd} {g : Int} (h : Rule p r b c g) :
    ∃ g', (c, g') ∈ table p r b ∧ g ≤ g' := by
  have hl : p.inGroup p.tCCD_L p.tCCD_S ≤ p.sameToSame_l := by
    unfold Times.inGroup Times.sameToSame_l; split <;> omega
  have hs : p.tCCD_S ≤ p.sameToSame_s := by unfold Times.sameToSame_s; omega
  have hw : p.WL + p.burst + p.inGroup p.tWTR_L p.tWTR_S ≤ p.writeToRead_l := by
    unfold Times.inGroup Times.writeToRead_l Times.writeDelay; split <;> omega
  cases h
  case tPPD_L h | tPPD_S h =>
    exact ⟨p.tPPD, by simp only [table, Times.otherBanks, Times.otherGroups, Times.hasPPD, h, if_true]; simp,
      Int.le_refl _⟩
  case tCCD_read_L hb h | tCCD_read_S hb h | tCCD_write_L hb h | tCCD_write_S hb h | tWTR_L hb h | tWTR_S hb h =>
    cases b <;> cases c <;> simp [Cmd.isRead, Cmd.isWrite] at h hb <;>
    exact ⟨_, by
      simp only [table, Times.otherBanks, Times.otherGroups, Times.columns]
      repeat first | exact List.mem_cons_self .. | apply List.mem_cons_of_mem, by
      first | assumption | exact Int.le_refl _⟩
  case tRCD_read h | tRCD_write h | tCCD_read_bank h | tCCD_write_bank h | tWTR_bank h =>
    cases c <;> simp [Cmd.isRead, Cmd.isWrite] at h <;>
    exact ⟨_, by
      simp only [table, Times.sameBank, Times.columns, List.cons_append, List.nil_append]
      repeat first | exact List.mem_cons_self .. | apply List.mem_cons_of_mem, by
      first | assumption | exact Int.le_refl _⟩
  all_goals
    exact ⟨_, by
      simp only [table, Cmd.isRank, Bool.false_eq_true, if_false, if_true, Times.sameBank, Times.otherBanks,
        Times.otherGroups, Times.sameRank, Times.columns, List.cons_append, List.nil_append]
      repeat first | exact List.mem_cons_self .. | apply List.mem_cons_of_mem, by
      exact Int.le_refl _⟩

/-- The commands of the rules. -/
theorem rule_shape {p : Times} {r : Rel} {b c : Cmd} {g : Int} (h : Rule p r b c g) :
    (r = .inRank ∧ (b.isRank ∨ ((c = .refresh ∨ c = .srefIn) ∧ b ≠ .refresh ∧ b ≠ .srefIn))) ∨
      (r ≠ .inRank ∧ b.isRank = false ∧ c ≠ .refresh ∧ c ≠ .srefIn) := by
  cases h
  case tCCD_read_L hb h | tCCD_read_S hb h | tCCD_write_L hb h | tCCD_write_S hb h | tWTR_L hb h | tWTR_S hb h =>
    cases b <;> cases c <;> simp [Cmd.isRead, Cmd.isWrite] at h hb <;> simp [Cmd.isRank]
  case tRCD_read h | tRCD_write h | tCCD_read_bank h | tCCD_write_bank h | tWTR_bank h =>
    cases c <;> simp [Cmd.isRead, Cmd.isWrite] at h <;> simp [Cmd.isRank]
  all_goals simp [Cmd.isRank]

/-- **C48.** No command comes before the minimal distances are over. The row cycle before a refresh and the time of the
refresh of a single bank are not among them: `C48_more_rules_violated`. -/
theorem C48_spaced_partial (p : Times) (hp : Sane p) (ops : List Op) (hops : ∀ o ∈ ops, o.Fits p) (s : Sim)
    (h : Sim.init.exec p ops = .ok s) (hclk : s.clk < 9223372036854775808) : Spaced (Rule p) s.hist := by
  have hi := inv_exec (inv_init p) hops h
  have ht := tinv_exec hp (inv_init p) (tinv_init p) hops h hclk
  intro d e r g haft hrel hrule
  obtain ⟨hap, he, hd⟩ := after_pairwise ht.apart haft
  have hehere := hi.here e he
  have hdhere := hi.here d hd
  obtain ⟨e1, he1, hr1⟩ := hi.one e he
  have main : ∀ a, Exists p a → checks e.cmd e.addr a → ∀ g', (e.cmd, g') ∈ bound p d.cmd d.addr a → g ≤ g' →
      (d.time : Int) + g ≤ e.time := by
    intro a ha hc g' hg hle
    have := hap a ha hc _ hg rfl
    dsimp only at this
    omega
  have self : (e.cmd ≠ .refresh ∧ e.cmd ≠ .srefIn) → ∀ g', (e.cmd, g') ∈ bound p d.cmd d.addr e.addr → g ≤ g' →
      (d.time : Int) + g ≤ e.time := fun hne =>
    main e.addr (hehere hne) (by simp [checks, hne.1, hne.2, SameBank])
  have self' : (e.cmd = .refresh ∨ e.cmd = .srefIn) → ∀ a, Exists p a → e.addr.rank = a.rank →
      ∀ g', (e.cmd, g') ∈ bound p d.cmd d.addr a → g ≤ g' → (d.time : Int) + g ≤ e.time := fun hk a ha hr =>
    main a ha (by rw [checks, if_pos hk]; exact hr)
  obtain ⟨g', hg, hle⟩ := rule_table hrule
  rcases rule_shape hrule with ⟨rfl, hk⟩ | ⟨hne, hb, hc⟩
  · rcases hk with hk | ⟨hk, hk'⟩
    · simp only [table, hk, if_true] at hg
      by_cases hc : e.cmd = .refresh ∨ e.cmd = .srefIn
      · refine self' hc e1 he1 hr1 g' ?_ hle
        simp only [bound, hk, if_true, show d.addr.rank = e1.rank from hrel.trans hr1]; exact hg
      · refine self (by simpa using hc) g' ?_ hle
        simp only [bound, hk, if_true, show d.addr.rank = e.addr.rank from hrel]; exact hg
    · have hd' := hdhere hk'
      by_cases hr : d.cmd.isRank
      · simp only [table, hr, if_true] at hg
        refine self' hk d.addr hd' hrel.symm g' ?_ hle
        simp only [bound, hr, if_true]; exact hg
      · simp only [table, hr] at hg
        refine self' hk d.addr hd' hrel.symm g' ?_ hle
        simp only [bound, hr, if_true]; exact hg
  · refine self hc g' ?_ hle
    cases r with
    | inRank => exact absurd rfl hne
    | sameBank =>
      simp only [bound, hb, Bool.false_eq_true, if_false, hrel.1, hrel.2.1, hrel.2.2, if_true]; exact hg
    | sameGroup =>
      simp only [bound, hb, Bool.false_eq_true, if_false, hrel.1, hrel.2.1, hrel.2.2, if_true]; exact hg
    | sameRank =>
      simp only [bound, hb, Bool.false_eq_true, if_false, hrel.1, hrel.2, if_true]; exact hg

theorem legal_suffix {u v : List Event} (h : Legal (u ++ v)) : Legal v := by
  induction u with
  | nil => exact h
  | cons e u ih => exact ih h.2

/-- Between a command that closes a row and the next read or write of the bank lies an activation. -/
theorem opened_between {a : Addr} {d : Event} {v w : List Event} {r : Nat}
    (hd : SameBank d.addr a → d.cmd = .pre ∨ d.cmd = .readPre ∨ d.cmd = .writePre) (hs : SameBank d.addr a)
    (ho : openRow a (v ++ d :: w) = some r) : ∃ f ∈ v, f.cmd = .act ∧ SameBank f.addr a := by
  induction v with
  | nil =>
    simp only [List.nil_append, openRow, if_pos hs] at ho
    rcases hd hs with h | h | h <;> rw [h] at ho <;> cases ho
  | cons e v ih =>
    simp only [List.cons_append, openRow] at ho
    split at ho
    · rename_i hse
      split at ho
      · exact ⟨e, List.mem_cons_self .., by assumption, hse⟩
      · cases ho
      · cases ho
      · cases ho
      · obtain ⟨f, hf, h⟩ := ih ho; exact ⟨f, List.mem_cons_of_mem _ hf, h⟩
    · obtain ⟨f, hf, h⟩ := ih ho; exact ⟨f, List.mem_cons_of_mem _ hf, h⟩

/-- Between an activation and a moment when the bank is closed lies a command that closes it. -/
theorem closed_between {d : Event} {v w : List Event} (hd : d.cmd = .act)
    (ho : openRow d.addr (v ++ d :: w) = none) :
    ∃ f ∈ v, (f.cmd = .pre ∨ f.cmd = .readPre ∨ f.cmd = .writePre) ∧ SameBank f.addr d.addr := by
  induction v with
  | nil => simp [openRow, SameBank, hd] at ho
  | cons e v ih =>
    simp only [List.cons_append, openRow] at ho
    split at ho
    · rename_i hse
      split at ho
      · cases ho
      · exact ⟨e, List.mem_cons_self .., .inl (by assumption), hse⟩
      · exact ⟨e, List.mem_cons_self .., .inr (.inl (by assumption)), hse⟩
      · exact ⟨e, List.mem_cons_self .., .inr (.inr (by assumption)), hse⟩
      · obtain ⟨f, hf, h⟩ := ih ho; exact ⟨f, List.mem_cons_of_mem _ hf, h⟩
    · obtain ⟨f, hf, h⟩ := ih ho; exact ⟨f, List.mem_cons_of_mem _ hf, h⟩

theorem after_split {u v w : List Event} {e d f : Event} (hf : f ∈ v) :
    After (u ++ e :: v ++ d :: w) e f ∧ After (u ++ e :: v ++ d :: w) f d := by
  obtain ⟨v1, v2, rfl⟩ := List.append_of_mem hf
  exact ⟨⟨u, v1, v2 ++ d :: w, by simp⟩, ⟨u ++ e :: v1, v2, w, by simp⟩⟩

/-- **C48.** The data bus: bursts do not overlap, and the pauses between directions and ranks are kept. The last
hypothesis compares the latencies for a read with auto-precharge followed by a write of the same bank. -/
theorem C48_bus (p : Times) (hp : Sane p) (ops : List Op) (hops : ∀ o ∈ ops, o.Fits p) (s : Sim)
    (h : Sim.init.exec p ops = .ok s) (hclk : s.clk < 9223372036854775808)
    (hap : p.CL + p.tRTRS ≤ p.CWL + p.AL + p.tRTP + p.tRP + p.toWrite) : BusFree p s.hist := by
  have hi := inv_exec (inv_init p) hops h
  have ht := tinv_exec hp (inv_init p) (tinv_init p) hops h hclk
  have hsp := C48_spaced_partial p hp ops hops s h hclk
  have hf := hp.fields
  have hr0 := hp.toRead
  have hw0 := hp.toWrite
  intro d e haft hd he
  obtain ⟨hapart, hem, hdm⟩ := after_pairwise ht.apart haft
  have hne : e.cmd ≠ .refresh ∧ e.cmd ≠ .srefIn := by
    constructor <;> intro h <;> simp [h, Cmd.isRead, Cmd.isWrite] at he
  have hnd : d.cmd.isRank = false := by
    cases hc : d.cmd <;> simp [hc, Cmd.isRead, Cmd.isWrite] at hd <;> rfl
  have heh := hi.here e hem hne
  have key : ∀ g, (e.cmd, g) ∈ bound p d.cmd d.addr e.addr → (d.time : Int) + g ≤ e.time := fun g hg =>
    hapart e.addr heh (by simp [checks, hne.1, hne.2, SameBank]) _ hg rfl
  by_cases hr : d.addr.rank = e.addr.rank
  · have hlow : ∀ l s : Int, max p.burst s ≤ l ∨ max p.burst s = l → p.burst ≤ l := by intro l s h; omega
    have hsame : p.burst ≤ p.sameToSame_l ∧ p.burst ≤ p.sameToSame_s := by
      unfold Times.sameToSame_l Times.sameToSame_s; split <;> omega
    have hwr : p.WL + p.burst ≤ p.writeToRead_l ∧ p.WL + p.burst ≤ p.writeToRead_s := by
      unfold Times.writeToRead_l Times.writeToRead_s Times.writeDelay; split <;> omega
    have cols : ∀ rr ww, (rr = p.sameToSame_l ∨ rr = p.sameToSame_s ∨ rr = p.writeToRead_l ∨ rr = p.writeToRead_s) →
        (∀ g, (e.cmd, g) ∈ Times.columns rr ww → (d.time : Int) + g ≤ e.time) →
        (e.cmd.isRead → (d.time : Int) + rr ≤ e.time) ∧ (e.cmd.isWrite → (d.time : Int) + ww ≤ e.time) := by
      intro rr ww _ hk
      constructor <;> intro hx <;> cases hc : e.cmd <;> simp [hc, Cmd.isRead, Cmd.isWrite] at hx <;>
        exact hk _ (by simp [Times.columns, hc])
    by_cases hsb : SameBank d.addr e.addr
    · have hb : bound p d.cmd d.addr e.addr = p.sameBank d.cmd := by
        simp [bound, hnd, hsb.1, hsb.2.1, hsb.2.2]
      rw [hb] at key
      by_cases hauto : d.cmd = .readPre ∨ d.cmd = .writePre
      · obtain ⟨u, v, w, hsplit⟩ := haft
        have hall : Allowed (v ++ d :: w) e := by
          have hl := hi.legal
          rw [hsplit, List.append_assoc, List.cons_append] at hl
          exact (legal_suffix hl).1
        have hopen : openRow e.addr (v ++ d :: w) = some e.addr.row := by
          unfold Allowed at hall
          cases hc : e.cmd <;> simp [hc, Cmd.isRead, Cmd.isWrite] at he <;> rw [hc] at hall <;> exact hall.2
        obtain ⟨f, hfv, hfc, hfs⟩ := opened_between (fun _ => .inr hauto) hsb hopen
        obtain ⟨h1, h2⟩ := after_split (u := u) (v := v) (w := w) (e := e) (d := d) hfv
        rw [← hsplit] at h1 h2
        have hdf : SameBank d.addr f.addr :=
          ⟨hsb.1.trans hfs.1.symm, hsb.2.1.trans hfs.2.1.symm, hsb.2.2.trans hfs.2.2.symm⟩
        have g1 : (d.time : Int) +
            (if d.cmd = .readPre then p.AL + p.burst + p.tRTP + p.tRP else p.WL + p.burst + p.tWR + p.tRP) ≤ f.time := by
          rcases hauto with hc | hc
          · have := hsp d f .sameBank _ h2 hdf (by rw [hc, hfc]; exact .tRTP_act)
            simpa [hc] using this
          · have := hsp d f .sameBank _ h2 hdf (by rw [hc, hfc]; exact .tWR_act)
            simpa [hc] using this
        have g2 : (f.time : Int) + (if e.cmd.isRead then p.toRead else p.toWrite) ≤ e.time := by
          by_cases hc : e.cmd.isRead
          · have := hsp f e .sameBank _ h1 hfs (by rw [hfc]; exact .tRCD_read hc)
            simpa [hc] using this
          · have hcw : e.cmd.isWrite := by simpa [hc] using he
            have := hsp f e .sameBank _ h1 hfs (by rw [hfc]; exact .tRCD_write hcw)
            simpa [hc] using this
        have hds : dataStart p d = d.time + if d.cmd = .readPre then p.RL else p.WL := by
          rcases hauto with hc | hc <;> simp [dataStart, hc, Cmd.isRead]
        have hdr : d.cmd.isRead = decide (d.cmd = .readPre) := by
          rcases hauto with hc | hc <;> simp [hc, Cmd.isRead]
        rw [hds, hdr]
        simp only [dataStart, hr, Times.RL, Times.WL, decide_eq_true_eq, ne_eq, not_true_eq_false, false_and, or_false]
        simp only [Times.WL] at g1
        by_cases hc : e.cmd.isRead
        · have hcw : e.cmd.isWrite = false := by cases hcc : e.cmd <;> simp [hcc, Cmd.isRead] at hc <;> rfl
          simp only [hc, hcw, Bool.false_eq_true, and_false, if_false, if_true] at g2 ⊢
          split at g1 <;> simp only [*, if_true, if_false] <;> omega
        · simp only [hc, Bool.false_eq_true, if_false] at g2 ⊢
          split at g1
          · simp only [*, if_true, true_and]; split <;> omega
          · simp only [*, if_false, false_and]; omega
      · have hplain : d.cmd = .read ∨ d.cmd = .write := by
          cases hc : d.cmd <;> simp [hc, Cmd.isRead, Cmd.isWrite] at hd hauto ⊢
        rcases hplain with hc | hc
        · have := cols p.sameToSame_l p.readToWrite (.inl rfl) fun g hg => key g (by
            rw [hc]; exact List.mem_append_left _ hg)
          have hdr : d.cmd.isRead = true := by rw [hc]; rfl
          simp only [dataStart, hdr, hr, ne_eq, not_true_eq_false, false_and, or_false, true_and, if_true]
          unfold Times.readToWrite at this
          by_cases hk : e.cmd.isRead
          · have hkw : e.cmd.isWrite = false := by cases hcc : e.cmd <;> simp [hcc, Cmd.isRead] at hk <;> rfl
            have := this.1 hk
            simp only [hk, hkw, if_true, Bool.false_eq_true, if_false]; omega
          · have hkw : e.cmd.isWrite := by simpa [hk] using he
            have := this.2 hkw
            simp only [hk, hkw, if_true, Bool.false_eq_true, if_false]; omega
        · have := cols p.writeToRead_l p.sameToSame_l (.inr (.inr (.inl rfl))) fun g hg => key g (by
            rw [hc]; exact List.mem_append_left _ hg)
          have hdr : d.cmd.isRead = false := by rw [hc]; rfl
          simp only [dataStart, hdr, hr, ne_eq, not_true_eq_false, false_and, or_false, Bool.false_eq_true,
            if_false]
          have hRL : 0 ≤ p.RL := by unfold Times.RL; omega
          by_cases hk : e.cmd.isRead
          · have := this.1 hk
            simp only [hk, if_true]; omega
          · have hkw : e.cmd.isWrite := by simpa [hk] using he
            have := this.2 hkw
            simp only [hk, Bool.false_eq_true, if_false]; omega
    · have hb : (bound p d.cmd d.addr e.addr = p.otherBanks d.cmd) ∨
          (bound p d.cmd d.addr e.addr = p.otherGroups d.cmd) := by
        by_cases hg : d.addr.group = e.addr.group
        · have hk : d.addr.bank ≠ e.addr.bank := fun hk => hsb ⟨hr, hg, hk⟩
          left; simp [bound, hnd, hr, hg, hk]
        · right; simp [bound, hnd, hr, hg]
      have hRL : 0 ≤ p.RL := by unfold Times.RL; omega
      by_cases hdr : d.cmd.isRead
      · have hcol : (∀ g, (e.cmd, g) ∈ Times.columns p.sameToSame_l p.readToWrite → (d.time : Int) + g ≤ e.time) ∨
            (∀ g, (e.cmd, g) ∈ Times.columns p.sameToSame_s p.readToWrite → (d.time : Int) + g ≤ e.time) := by
          rcases hb with hb | hb <;> rw [hb] at key
          · left; intro g hg; apply key; cases hc : d.cmd <;> simp [hc, Cmd.isRead] at hdr <;> exact hg
          · right; intro g hg; apply key; cases hc : d.cmd <;> simp [hc, Cmd.isRead] at hdr <;> exact hg
        have : (e.cmd.isRead → (d.time : Int) + p.burst ≤ e.time) ∧
            (e.cmd.isWrite → (d.time : Int) + p.readToWrite ≤ e.time) := by
          rcases hcol with hk | hk
          · have := cols _ _ (.inl rfl) hk
            exact ⟨fun hx => by have := this.1 hx; omega, this.2⟩
          · have := cols _ _ (.inr (.inl rfl)) hk
            exact ⟨fun hx => by have := this.1 hx; omega, this.2⟩
        unfold Times.readToWrite at this
        simp only [dataStart, hdr, hr, ne_eq, not_true_eq_false, false_and, or_false, true_and, if_true]
        by_cases hk : e.cmd.isRead
        · have hkw : e.cmd.isWrite = false := by cases hcc : e.cmd <;> simp [hcc, Cmd.isRead] at hk <;> rfl
          have := this.1 hk
          simp only [hk, hkw, if_true, Bool.false_eq_true, if_false]; omega
        · have hkw : e.cmd.isWrite := by simpa [hk] using he
          have := this.2 hkw
          simp only [hk, hkw, if_true, Bool.false_eq_true, if_false]; omega
      · have hdw : d.cmd.isWrite := by simpa [hdr] using hd
        have hcol : (∀ g, (e.cmd, g) ∈ Times.columns p.writeToRead_l p.sameToSame_l → (d.time : Int) + g ≤ e.time) ∨
            (∀ g, (e.cmd, g) ∈ Times.columns p.writeToRead_s p.sameToSame_s → (d.time : Int) + g ≤ e.time) := by
          rcases hb with hb | hb <;> rw [hb] at key
          · left; intro g hg; apply key; cases hc : d.cmd <;> simp [hc, Cmd.isWrite] at hdw <;> exact hg
          · right; intro g hg; apply key; cases hc : d.cmd <;> simp [hc, Cmd.isWrite] at hdw <;> exact hg
        have : (e.cmd.isRead → (d.time : Int) + p.WL + p.burst ≤ e.time) ∧
            (e.cmd.isWrite → (d.time : Int) + p.burst ≤ e.time) := by
          rcases hcol with hk | hk
          · have := cols _ _ (.inr (.inr (.inl rfl))) hk
            exact ⟨fun hx => by have := this.1 hx; omega, fun hx => by have := this.2 hx; omega⟩
          · have := cols _ _ (.inr (.inr (.inr rfl))) hk
            exact ⟨fun hx => by have := this.1 hx; omega, fun hx => by have := this.2 hx; omega⟩
        simp only [dataStart, hdr, hr, ne_eq, not_true_eq_false, false_and, or_false, Bool.false_eq_true, if_false]
        by_cases hk : e.cmd.isRead
        · have := this.1 hk
          simp only [hk, if_true]; omega
        · have hkw : e.cmd.isWrite := by simpa [hk] using he
          have := this.2 hkw
          simp only [hk, Bool.false_eq_true, if_false]; omega
  · have hb : bound p d.cmd d.addr e.addr = p.otherRanks d.cmd := by simp [bound, hnd, hr]
    rw [hb] at key
    have cols : ∀ rr ww, (∀ g, (e.cmd, g) ∈ Times.columns rr ww → (d.time : Int) + g ≤ e.time) →
        (e.cmd.isRead → (d.time : Int) + rr ≤ e.time) ∧ (e.cmd.isWrite → (d.time : Int) + ww ≤ e.time) := by
      intro rr ww hk
      constructor <;> intro hx <;> cases hc : e.cmd <;> simp [hc, Cmd.isRead, Cmd.isWrite] at hx <;>
        exact hk _ (by simp [Times.columns, hc])
    by_cases hdr : d.cmd.isRead
    · have := cols p.readToRead_o p.readToWrite_o fun g hg => key g (by
        cases hc : d.cmd <;> simp [hc, Cmd.isRead] at hdr <;> exact hg)
      unfold Times.readToRead_o Times.readToWrite_o Times.readDelay Times.writeDelay at this
      simp only [dataStart, hdr, hr, ne_eq, not_false_eq_true, true_and, if_true]
      by_cases hk : e.cmd.isRead
      · have := this.1 hk
        simp only [hk, if_true, or_true]; omega
      · have hkw : e.cmd.isWrite := by simpa [hk] using he
        have := this.2 hkw
        simp only [hk, hkw, if_true, Bool.false_eq_true, if_false, or_false]; omega
    · have hdw : d.cmd.isWrite := by simpa [hdr] using hd
      have := cols p.writeToRead_o p.writeToWrite_o fun g hg => key g (by
        cases hc : d.cmd <;> simp [hc, Cmd.isWrite] at hdw <;> exact hg)
      unfold Times.writeToRead_o Times.writeToWrite_o Times.readDelay Times.writeDelay at this
      simp only [dataStart, hdr, hr, ne_eq, not_false_eq_true, true_and, Bool.false_eq_true, if_false, false_and,
        false_or]
      by_cases hk : e.cmd.isRead
      · have := this.1 hk
        simp only [hk, if_true]; omega
      · have hkw : e.cmd.isWrite := by simpa [hk] using he
        have := this.2 hkw
        simp only [hk, Bool.false_eq_true, if_false]; omega

/-- **C48.** The row cycle before a refresh is kept without auto-precharge, or where the column commands alone take so
long. -/
theorem C48_row_cycle_partial (p : Times) (hp : Sane p) (ops : List Op) (hops : ∀ o ∈ ops, o.Fits p) (s : Sim)
    (h : Sim.init.exec p ops = .ok s) (hclk : s.clk < 9223372036854775808)
    (hauto : (∀ e ∈ s.hist, e.cmd ≠ .readPre ∧ e.cmd ≠ .writePre) ∨
      (p.tRAS ≤ p.toRead + p.AL + p.tRTP ∧ p.tRAS ≤ p.toWrite + p.WL + p.burst + p.tWR))
    (d e : Event) (haft : After s.hist e d) (hr : d.addr.rank = e.addr.rank) (hd : d.cmd = .act)
    (he : e.cmd = .refresh) : (d.time : Int) + p.tRC ≤ e.time := by
  have hi := inv_exec (inv_init p) hops h
  have hsp := C48_spaced_partial p hp ops hops s h hclk
  obtain ⟨u, v, w, hsplit⟩ := haft
  have hall : Allowed (v ++ d :: w) e := by
    have hl := hi.legal
    rw [hsplit, List.append_assoc, List.cons_append] at hl
    exact (legal_suffix hl).1
  rw [Allowed, he] at hall
  obtain ⟨f, hfv, hfc, hfs⟩ := closed_between hd (hall.2 d.addr hr)
  obtain ⟨h1, h2⟩ := after_split (u := u) (v := v) (w := w) (e := e) (d := d) hfv
  rw [← hsplit] at h1 h2
  have hfm : f ∈ s.hist := by rw [hsplit]; simp [hfv]
  have hfr : Related .inRank f.addr e.addr := hfs.1.trans hr
  have hdf : SameBank d.addr f.addr := ⟨hfs.1.symm, hfs.2.1.symm, hfs.2.2.symm⟩
  unfold Times.tRC
  rcases hfc with hc | hc | hc
  · have g1 := hsp d f .sameBank _ h2 hdf (by rw [hd, hc]; exact .tRAS)
    have g2 := hsp f e .inRank _ h1 hfr (by rw [hc, he]; exact .tRP_refresh)
    omega
  · rcases hauto with hno | ⟨hq, _⟩
    · exact absurd hc (hno f hfm).1
    have g1 := hsp d f .sameBank _ h2 hdf (by rw [hd]; exact .tRCD_read (by simp [hc, Cmd.isRead]))
    have g2 := hsp f e .inRank _ h1 hfr (by rw [hc, he]; exact .tRTP_refresh)
    omega
  · rcases hauto with hno | ⟨_, hq⟩
    · exact absurd hc (hno f hfm).2
    have g1 := hsp d f .sameBank _ h2 hdf (by rw [hd]; exact .tRCD_write (by simp [hc, Cmd.isWrite]))
    have g2 := hsp f e .inRank _ h1 hfr (by rw [hc, he]; exact .tWR_refresh)
    omega

/-- **C49.** Any five activations of a rank in a row span at least `tFAW` cycles. -/
theorem C49_four_activations (p : Times) (hp : Sane p) (ops : List Op) (hops : ∀ o ∈ ops, o.Fits p) (s : Sim)
    (h : Sim.init.exec p ops = .ok s) (hclk : s.clk < 9223372036854775808) : Window 4 p.tFAW s.hist :=
  (tinv_exec hp (inv_init p) (tinv_init p) hops h hclk).fourHist

/-- **C49.** With GDDR, any 33 activations of a rank in a row span at least `t32AW` cycles. -/
theorem C49_thirty_two_activations (p : Times) (hp : Sane p) (hg : p.gddr) (ops : List Op)
    (hops : ∀ o ∈ ops, o.Fits p) (s : Sim) (h : Sim.init.exec p ops = .ok s) (hclk : s.clk < 9223372036854775808) :
    Window 32 p.t32AW s.hist :=
  (tinv_exec hp (inv_init p) (tinv_init p) hops h hclk).thirtyTwoHist hg

namespace Example

/-- `rad-sim/sim/dram/DRAMsim3/configs/DDR4_8Gb_x8_2400.ini`. -/
def ddr4 : Times :=
  { ranks := 2, groups := 4, banksPerGroup := 4, gddr := false, hbm := false, lpddr4 := false, burst := 4, AL := 0,
    CL := 17, CWL := 12, tCCD_L := 6, tCCD_S := 4, tRTRS := 1, tRTP := 9, tWTR_L := 9, tWTR_S := 3, tWR := 18,
    tRP := 17, tRRD_L := 6, tRRD_S := 4, tRAS := 39, tRCD := 17, tRCDRD := 24, tRCDWR := 20, tRFC := 420, tRFCb := 20,
    tREFI := 9360, tREFIb := 1950, tFAW := 26, t32AW := 330, tPPD := 0, tCKESR := 7, tXS := 432 }

/-- `rad-sim/sim/dram/DRAMsim3/configs/HBM2_8Gb_x128.ini`. -/
def hbm2 : Times :=
  { ranks := 2, groups := 4, banksPerGroup := 4, gddr := false, hbm := true, lpddr4 := false, burst := 2, AL := 0,
    CL := 14, CWL := 4, tCCD_L := 2, tCCD_S := 1, tRTRS := 2, tRTP := 5, tWTR_L := 8, tWTR_S := 6, tWR := 16,
    tRP := 14, tRRD_L := 6, tRRD_S := 4, tRAS := 34, tRCD := 14, tRCDRD := 14, tRCDWR := 14, tRFC := 260, tRFCb := 20,
    tREFI := 3900, tREFIb := 128, tFAW := 30, t32AW := 330, tPPD := 0, tCKESR := 12, tXS := 268 }

/-- `rad-sim/sim/dram/DRAMsim3/configs/GDDR5_8Gb_x32.ini`. -/
def gddr5 : Times :=
  { ranks := 1, groups := 1, banksPerGroup := 16, gddr := true, hbm := false, lpddr4 := false, burst := 2, AL := 0,
    CL := 24, CWL := 7, tCCD_L := 3, tCCD_S := 2, tRTRS := 1, tRTP := 5, tWTR_L := 10, tWTR_S := 10, tWR := 24,
    tRP := 24, tRRD_L := 10, tRRD_S := 10, tRAS := 56, tRCD := 10, tRCDRD := 24, tRCDWR := 20, tRFC := 74,
    tRFCb := 30, tREFI := 3800, tREFIb := 238, tFAW := 40, t32AW := 360, tPPD := 5, tCKESR := 2, tXS := 94 }

theorem sane_ddr4 : Sane ddr4 := by constructor <;> decide
theorem sane_hbm2 : Sane hbm2 := by constructor <;> decide
theorem sane_gddr5 : Sane gddr5 := by constructor <;> decide

/-- The history of a run. -/
def histOf (p : Times) (ops : List Op) : Option (List (Nat × Cmd)) :=
  (Sim.init.exec p ops).toOption.map fun s => s.hist.map fun e => (e.time, e.cmd)

theorem of_histOf {p : Times} {ops : List Op} {l : List (Nat × Cmd)} (h : histOf p ops = some l) :
    ∃ s, Sim.init.exec p ops = .ok s ∧ s.hist.map (fun e => (e.time, e.cmd)) = l := by
  unfold histOf at h
  cases hx : Sim.init.exec p ops with
  | error e => rw [hx] at h; cases h
  | ok s => rw [hx] at h; exact ⟨s, rfl, by simpa [Except.toOption] using h⟩

/-- A request for a place. -/
def at_ (c : Cmd) (r j k row : Nat) : Op := .ask ⟨c, ⟨r, j, k, row, 0⟩, 0⟩

/-- A read, a write to the same row, then one to another row of the bank. -/
def mixed : List Op :=
  [at_ .read 0 0 0 5, .wait 16, at_ .read 0 0 0 5, .wait 1, at_ .read 0 0 0 5, .wait 10, at_ .write 0 0 0 5,
   .wait 22, at_ .write 0 0 0 6, .wait 12, at_ .write 0 0 0 6, .wait 17, at_ .write 0 0 0 6, .wait 17,
   at_ .write 0 0 0 6]

theorem mixed_hist : histOf ddr4 mixed =
    some [(95, .write), (78, .act), (61, .pre), (27, .write), (17, .read), (0, .act)] := by decide +kernel

theorem fits_of {p : Times} {ops : List Op}
    (h : ops.all (fun o => match o with
      | .ask c => c.addr.rank < p.ranks && c.addr.group < p.groups && c.addr.bank < p.banksPerGroup
      | _ => true) = true) : ∀ o ∈ ops, o.Fits p := by
  intro o ho
  have := List.all_eq_true.1 h o ho
  cases o with
  | wait n => trivial
  | note c => trivial
  | ask c =>
    simp only [Bool.and_eq_true, decide_eq_true_eq] at this
    exact ⟨this.1.1, fun _ => ⟨this.1.1, this.1.2, this.2⟩⟩

theorem clk_of {p : Times} {ops : List Op} {s : Sim} (h : Sim.init.exec p ops = .ok s) :
    s.clk = (ops.map fun o => match o with | .wait n => n | _ => 0).sum := by
  have gen : ∀ (ops : List Op) (s s' : Sim), s.exec p ops = .ok s' →
      s'.clk = s.clk + (ops.map fun o => match o with | .wait n => n | _ => 0).sum := by
    intro ops
    induction ops with
    | nil => intro s s' h; cases h; simp
    | cons o l ih =>
      intro s s' h
      simp only [Sim.exec, bind, Except.bind] at h
      cases hst : s.step p o with
      | error e => rw [hst] at h; cases h
      | ok s1 =>
        rw [hst] at h
        have := ih s1 s' h
        rw [this, List.map_cons, List.sum_cons, ← Nat.add_assoc]
        congr 1
        cases o with
        | wait n => cases hst; rfl
        | note c => cases hst; rfl
        | ask c => rcases step_ask hst with ⟨_, rfl⟩ | ⟨x, ch, _, _, rfl⟩ <;> rfl
  simpa [Sim.init] using gen ops _ _ h

/-- The theorems apply to a real run: six commands at the earliest cycles. -/
example : ∃ s, Sim.init.exec ddr4 mixed = .ok s ∧ s.hist.length = 6 ∧ Legal s.hist ∧ Spaced (Rule ddr4) s.hist ∧
    BusFree ddr4 s.hist := by
  obtain ⟨s, hs, hh⟩ := of_histOf mixed_hist
  have hf := fits_of (p := ddr4) (ops := mixed) (by decide)
  have hc := clk_of hs
  have hlt : s.clk < 9223372036854775808 := by rw [hc]; decide
  exact ⟨s, hs, by simpa using congrArg List.length hh, C48_legal ddr4 mixed hf s hs,
    C48_spaced_partial ddr4 sane_ddr4 mixed hf s hs hlt, C48_bus ddr4 sane_ddr4 mixed hf s hs hlt (by decide)⟩

/-- Both ranks: a write and a read in the same cycle, with data one after the other on the bus. -/
def ranks : List Op :=
  [at_ .write 0 0 0 5, at_ .read 1 0 0 5, .wait 17, at_ .write 0 0 0 5, at_ .read 1 0 0 5]

example : histOf ddr4 ranks = some [(17, .read), (17, .write), (0, .act), (0, .act)] := by decide +kernel

example : ∀ o ∈ mixed, o.Fits ddr4 ∧ Plain o :=
  fun o ho => ⟨fits_of (p := ddr4) (ops := mixed) (by decide) o ho, by
    intro c hc
    subst hc
    have h : mixed.all (fun o => match o with
      | .ask c => c.cmd.isRead || c.cmd.isWrite | _ => true) = true := by decide
    have := List.all_eq_true.1 h _ ho
    simp only [Bool.or_eq_true] at this
    rcases this with h | h
    · exact .inl h
    · exact .inr (.inl h)⟩

/-- Without auto-precharge a refresh keeps the row cycle. -/
def refreshed : List Op :=
  [at_ .read 0 1 2 5, .wait 17, at_ .read 0 1 2 5, .wait 21, at_ .refresh 0 0 0 0, .wait 1, at_ .refresh 0 0 0 0,
   .wait 16, at_ .refresh 0 0 0 0, .wait 1, at_ .refresh 0 0 0 0]

theorem refreshed_hist : histOf ddr4 refreshed =
    some [(56, .refresh), (39, .pre), (17, .read), (0, .act)] := by decide +kernel

example : ∃ s, Sim.init.exec ddr4 refreshed = .ok s ∧ s.hist.length = 4 ∧
    ∀ d e, After s.hist e d → d.addr.rank = e.addr.rank → d.cmd = .act → e.cmd = .refresh →
      (d.time : Int) + ddr4.tRC ≤ e.time := by
  obtain ⟨s, hs, hh⟩ := of_histOf refreshed_hist
  have hf := fits_of (p := ddr4) (ops := refreshed) (by decide)
  have hc := clk_of hs
  have hlt : s.clk < 9223372036854775808 := by rw [hc]; decide
  refine ⟨s, hs, by simpa using congrArg List.length hh, fun d e h1 h2 h3 h4 =>
    C48_row_cycle_partial ddr4 sane_ddr4 refreshed hf s hs hlt (.inl fun e he => ?_) d e h1 h2 h3 h4⟩
  have hm : (e.time, e.cmd) ∈ s.hist.map (fun e => (e.time, e.cmd)) := List.mem_map.2 ⟨e, he, rfl⟩
  rw [hh] at hm
  simp only [List.mem_cons, Prod.mk.injEq, List.not_mem_nil, or_false] at hm
  rcases hm with h | h | h | h <;> rw [h.2] <;> exact ⟨by decide, by decide⟩

/-- Five activations: the fifth waits for the window. -/
def five : List Op :=
  [at_ .read 0 0 0 5, .wait 4, at_ .read 0 1 0 5, .wait 4, at_ .read 0 2 0 5, .wait 4, at_ .read 0 3 0 5, .wait 4,
   at_ .read 0 0 1 5, .wait 9, at_ .read 0 0 1 5, .wait 1, at_ .read 0 0 1 5]

theorem five_hist : histOf ddr4 five = some [(26, .act), (12, .act), (8, .act), (4, .act), (0, .act)] := by
  decide +kernel

example : ∃ s, Sim.init.exec ddr4 five = .ok s ∧ s.hist.length = 5 ∧ Window 4 26 s.hist := by
  obtain ⟨s, hs, hh⟩ := of_histOf five_hist
  have hlt : s.clk < 9223372036854775808 := by rw [clk_of hs]; decide
  exact ⟨s, hs, by simpa using congrArg List.length hh,
    C49_four_activations ddr4 sane_ddr4 five (fits_of (by decide)) s hs hlt⟩

/-- 33 activations of a GDDR5 rank, ten cycles apart, each bank precharged in time: the last waits. -/
def many : List Op :=
  ((List.range 33).flatMap fun i =>
    [at_ .read 0 0 (i % 16) (i / 16)] ++ (if 12 ≤ i ∧ i < 29 then [at_ .read 0 0 ((i + 4) % 16) ((i + 4) / 16)] else []) ++
      [.wait (if i = 31 then 49 else if i = 32 then 1 else 10)]) ++ [at_ .read 0 0 0 2]

theorem many_hist : (histOf gddr5 many).map (fun l => (l.filter fun x => x.2 = .act).map Prod.fst) =
    some [360, 310, 300, 290, 280, 270, 260, 250, 240, 230, 220, 210, 200, 190, 180, 170, 160, 150, 140, 130, 120, 110,
      100, 90, 80, 70, 60, 50, 40, 30, 20, 10, 0] := by decide +kernel

example : ∃ s, Sim.init.exec gddr5 many = .ok s ∧ Window 32 360 s.hist := by
  cases hx : histOf gddr5 many with
  | none => have := many_hist; rw [hx] at this; cases this
  | some l =>
    obtain ⟨s, hs, hh⟩ := of_histOf hx
    have hlt : s.clk < 9223372036854775808 := by rw [clk_of hs]; decide +kernel
    exact ⟨s, hs, C49_thirty_two_activations gddr5 sane_gddr5 rfl many (fits_of (by decide +kernel)) s hs hlt⟩

/-- A bank is refreshed and activated in the next cycle. -/
def bankRefresh : List Op := [at_ .refBank 0 0 0 0, .wait 1, at_ .read 0 0 0 5]

/-- A read with auto-precharge, then a refresh at the earliest cycle. -/
def earlyRefresh : List Op := [at_ .readPre 0 0 0 5, .wait 17, at_ .readPre 0 0 0 5, .wait 26, at_ .refresh 0 0 0 0]

theorem earlyRefresh_hist : histOf ddr4 earlyRefresh = some [(43, .refresh), (17, .readPre), (0, .act)] := by
  decide +kernel

theorem bankRefresh_hist : histOf hbm2 bankRefresh = some [(1, .act), (0, .refBank)] := by decide +kernel

end Example

open Example

/-- **C48.** A bank that refreshes itself takes `tRFCb` cycles; the channel lets it be activated one cycle later: with
the HBM2 configuration this rule is broken. -/
theorem C48_bank_refresh_violated : ∃ ops s, (∀ o ∈ ops, o.Fits hbm2) ∧ Sim.init.exec hbm2 ops = .ok s ∧
    ∃ d e, After s.hist e d ∧ SameBank d.addr e.addr ∧ MoreRule hbm2 .sameBank d.cmd e.cmd hbm2.tRFCb ∧
      e.time = d.time + 1 ∧ hbm2.tRFCb = 20 := by
  have h : (Sim.init.exec hbm2 bankRefresh).toOption.map Sim.hist =
      some [⟨1, .act, ⟨0, 0, 0, 5, 0⟩⟩, ⟨0, .refBank, ⟨0, 0, 0, 0, 0⟩⟩] := by decide +kernel
  cases hx : Sim.init.exec hbm2 bankRefresh with
  | error e => rw [hx] at h; cases h
  | ok s =>
    rw [hx] at h
    have hh : s.hist = _ := Option.some.inj h
    exact ⟨bankRefresh, s, fits_of (by decide), hx, ⟨0, .refBank, ⟨0, 0, 0, 0, 0⟩⟩,
      ⟨1, .act, ⟨0, 0, 0, 5, 0⟩⟩, (by rw [hh]; exact ⟨[], [], [], rfl⟩), ⟨rfl, rfl, rfl⟩, .tRFCb, rfl, rfl⟩

/-- **C48.** After a read with auto-precharge a refresh comes before the row cycle has passed: with DDR4-2400, 43
cycles after the activation instead of 56. -/
theorem C48_row_cycle_violated : ∃ ops s, (∀ o ∈ ops, o.Fits ddr4) ∧ Sim.init.exec ddr4 ops = .ok s ∧
    ∃ d e, After s.hist e d ∧ MoreRule ddr4 .inRank d.cmd e.cmd ddr4.tRC ∧ d.addr.rank = e.addr.rank ∧
      e.time = d.time + 43 ∧ ddr4.tRC = 56 := by
  have h : (Sim.init.exec ddr4 earlyRefresh).toOption.map Sim.hist =
      some [⟨43, .refresh, ⟨0, 0, 0, 0, 0⟩⟩, ⟨17, .readPre, ⟨0, 0, 0, 5, 0⟩⟩, ⟨0, .act, ⟨0, 0, 0, 5, 0⟩⟩] := by
    decide +kernel
  cases hx : Sim.init.exec ddr4 earlyRefresh with
  | error e => rw [hx] at h; cases h
  | ok s =>
    rw [hx] at h
    have hh : s.hist = _ := Option.some.inj h
    exact ⟨earlyRefresh, s, fits_of (by decide), hx, ⟨0, .act, ⟨0, 0, 0, 5, 0⟩⟩,
      ⟨43, .refresh, ⟨0, 0, 0, 0, 0⟩⟩, (by rw [hh]; exact ⟨[], [_], [], rfl⟩), .tRC_refresh, rfl, rfl, rfl⟩

/-- **C48.** The exit from self-refresh, which the controller asks for to wake a rank
(`rad-sim/sim/dram/DRAMsim3/src/controller.cc:118-125`), ends the program in every state: of a rank in self-refresh and
of any other. -/
theorem C48_wake_violated (p : Times) (hp : 0 < p.groups * p.banksPerGroup) (s : Sim) (a : Addr) (x : Nat) :
    s.step p (.ask ⟨.srefOut, a, x⟩) = .error .abort := by
  have hpl : places p ≠ [] := by
    intro h
    have := places_length p
    rw [h] at this
    rw [List.length_nil] at this
    omega
  obtain ⟨⟨j, k⟩, l, hl⟩ := List.exists_cons_of_ne_nil hpl
  have hq : (s.chan.bank a.rank j k).required ⟨.srefOut, a, x⟩ = .error .abort := by
    cases hs : (s.chan.bank a.rank j k).state <;> simp [Bank.required, hs]
  simp only [Sim.step, getReady, Cmd.isRank, hl, rankReady, Bank.getReady, hq, bind, Except.bind, if_true]

end RadSim.DramSim
