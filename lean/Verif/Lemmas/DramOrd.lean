import Verif.Lemmas.DramCtrl

/-! # The controller of a DRAM channel: the order of reads and writes of an address -/

namespace RadSim.DramSim

open Chan Ctrl

/-- Before a write in a queue there is the read of the same address that is pending, if there is one. -/
structure Ord (c : Cfg) (s : Ctrl) : Prop where
  cmd : ∀ i l1 x l2, s.queues i = l1 ++ x :: l2 → x.cmd.isWrite → 0 < nRd s x.hex →
    ∃ y ∈ l1, y.hex = x.hex ∧ y.cmd.isRead
  uni : ∀ l1 t l2, s.unifiedQ = l1 ++ t :: l2 → t.write = true → 0 < nRd s t.addr →
    (∃ y ∈ l1, y.addr = t.addr ∧ y.write = false) ∨
      ∃ y ∈ s.queues (queueIndex c (c.map t.addr)), y.hex = t.addr ∧ y.cmd.isRead
  rq : c.unified → s.readQ = []

theorem Ord.init (c : Cfg) : Ord c .init := by
  constructor <;> simp [Ctrl.init]

theorem SameBook.ord {c : Cfg} {s s' : Ctrl} (h : SameBook s s') (ho : Ord c s) : Ord c s' := by
  obtain ⟨h1, h2, h3, h4, h5, h6⟩ := h
  obtain ⟨o1, o2, o3⟩ := ho
  constructor <;> simp only [nRd, h1, h2, h4, h5] <;> assumption

/-- An element of a list with one more element. -/
theorem split_insert {α : Type} {l1 l2 m1 m2 : List α} {x w : α} (h : l1 ++ l2 = m1 ++ w :: m2) :
    (∃ k, l1 ++ x :: l2 = m1 ++ w :: k) ∨ ∃ k, l1 ++ x :: l2 = k ++ w :: m2 ∧ ∀ y ∈ k, y ∈ m1 ∨ y = x := by
  rw [List.append_eq_append_iff] at h
  rcases h with ⟨as, h1, h2⟩ | ⟨as, h1, h2⟩
  · right
    refine ⟨l1 ++ x :: as, by rw [h2]; simp, fun y hy => ?_⟩
    simp only [List.mem_append, List.mem_cons] at hy
    rw [h1]
    rcases hy with h | h | h <;> simp [h]
  · cases as with
    | nil =>
      simp only [List.nil_append, List.append_nil] at h1 h2
      right
      refine ⟨l1 ++ [x], by rw [← h2]; simp, fun y hy => ?_⟩
      simp only [List.mem_append, List.mem_singleton] at hy
      rw [← h1]; exact hy
    | cons b bs =>
      simp only [List.cons_append, List.cons.injEq] at h2
      left
      exact ⟨bs ++ x :: l2, by rw [h1, h2.1]; simp⟩

/-- A command is taken and issued. -/
theorem Took.ord {c : Cfg} {s s' : Ctrl} {x : Command} {ch : Chan} (h : Took c s s' x) (ho : Ord c s) :
    Ord c (DramSim.issued c s' x ch) := by
  have e := h.same
  have hp : ∀ a, nRd s' a = nRd s a := by intro a; unfold nRd; rw [e]
  have hn : ∀ a, 0 < nRd (DramSim.issued c s' x ch) a → 0 < nRd s a ∧ ¬ (x.cmd.isRead ∧ x.hex = a) := by
    intro a ha
    rw [issued_nRd, hp] at ha
    split at ha
    · omega
    · exact ⟨ha, by assumption⟩
  have hu : s'.unifiedQ = s.unifiedQ := by rw [e]
  have hq : s'.readQ = s.readQ := by rw [e]
  by_cases hrw : x.cmd.isRead ∨ x.cmd.isWrite
  · obtain ⟨j, l1, l2, e1, e2, -⟩ := h.gone hrw
    refine ⟨fun i m1 w m2 hi hw ha => ?_, fun m1 t m2 hi hw ha => ?_, fun hc => ?_⟩
    · obtain ⟨h1, h2⟩ := hn _ ha
      change s'.queues i = m1 ++ w :: m2 at hi
      rw [e2] at hi
      dsimp only at hi
      split at hi
      · rename_i hij
        subst hij
        rcases split_insert (x := x) hi with ⟨k, hk⟩ | ⟨k, hk, hk'⟩
        · exact ho.cmd i m1 w k (e1.trans hk) hw h1
        · obtain ⟨y, hy, hy1, hy2⟩ := ho.cmd i k w m2 (e1.trans hk) hw h1
          rcases hk' y hy with hy' | rfl
          · exact ⟨y, hy', hy1, hy2⟩
          · exact absurd ⟨hy2, hy1⟩ h2
      · exact ho.cmd i m1 w m2 hi hw h1
    · obtain ⟨h1, h2⟩ := hn _ ha
      change s'.unifiedQ = _ at hi
      rw [hu] at hi
      rcases ho.uni m1 t m2 hi hw h1 with h' | ⟨y, hy, hy1, hy2⟩
      · exact .inl h'
      · right
        refine ⟨y, ?_, hy1, hy2⟩
        show y ∈ s'.queues _
        rw [e2]
        dsimp only
        split
        · rename_i hij
          rw [hij, e1] at hy
          simp only [List.mem_append, List.mem_cons] at hy ⊢
          rcases hy with hy | rfl | hy
          · exact .inl hy
          · exact absurd ⟨hy2, hy1⟩ h2
          · exact .inr hy
        · exact hy
    · show s'.readQ = []
      rw [hq]; exact ho.rq hc
  · have hst := h.stay (by cases hx : x.cmd.isRead <;> simp [hx] at hrw ⊢) (by
      cases hx : x.cmd.isWrite <;> simp [hx] at hrw ⊢)
    refine ⟨fun i m1 w m2 hi hw ha => ?_, fun m1 t m2 hi hw ha => ?_, fun hc => ?_⟩
    · change s'.queues i = _ at hi
      rw [hst] at hi
      exact ho.cmd i m1 w m2 hi hw (hn _ ha).1
    · change s'.unifiedQ = _ at hi
      rw [hu] at hi
      have := ho.uni m1 t m2 hi hw (hn _ ha).1
      rw [← hst] at this
      exact this
    · show s'.readQ = []
      rw [hq]; exact ho.rq hc

/-- A write is issued only when no read of its address is pending. -/
theorem Took.first {c : Cfg} {s s' : Ctrl} {x : Command} (h : Took c s s' x) (hb : Book c s) (ho : Ord c s)
    (hw : x.cmd.isWrite) : nRd s x.hex = 0 ∧ x.addr = c.map x.hex := by
  obtain ⟨j, l1, l2, e1, -, hd⟩ := h.gone (.inr hw)
  have hx : x.addr = c.map x.hex := by
    obtain ⟨-, w, hw⟩ := hb.cmds j x (by rw [e1]; simp)
    rw [hw]; rfl
  refine ⟨?_, hx⟩
  by_contra hne
  obtain ⟨y, hy, hy1, hy2⟩ := ho.cmd j l1 x l2 e1 hw (by omega)
  refine hd hw y hy hy2 ?_
  obtain ⟨-, w, hw⟩ := hb.cmds j y (by rw [e1]; simp [hy])
  have : y.addr = c.map y.hex := by rw [hw]; rfl
  rw [this, hx, hy1]

theorem rIn_two {c : Cfg} {s : Ctrl} (hb : Book c s) {a : Nat} {y : Command}
    (hy : y ∈ s.queues (queueIndex c (c.map a))) (h1 : y.hex = a) (h2 : y.cmd.isRead) :
    (∀ t ∈ s.readQ, t.addr ≠ a) ∧ ∀ t ∈ s.unifiedQ, t.addr = a → t.write = true := by
  have h := (hb.rd a).2
  unfold rIn at h
  have h3 : 0 < (s.queues (queueIndex c (c.map a))).countP fun x => decide (x.hex = a) && x.cmd.isRead :=
    List.countP_pos_iff.2 ⟨y, hy, by simp [h1, h2]⟩
  refine ⟨fun t ht hta => ?_, fun t ht hta => ?_⟩
  · have : 0 < s.readQ.countP fun t => t.addr = a := List.countP_pos_iff.2 ⟨t, ht, by simp [hta]⟩
    omega
  · cases hw : t.write with
    | true => rfl
    | false =>
      have : 0 < s.unifiedQ.countP fun t => decide (t.addr = a) && !t.write :=
        List.countP_pos_iff.2 ⟨t, ht, by simp [hta, hw]⟩
      omega

/-- The entries before the one chosen have no place in a queue. -/
theorem pick_before {c : Cfg} {s : Ctrl} {l : List Trans} {t : Trans} {m : List Trans} (h : s.pick c l = some (t, m)) :
    ∃ l1 l2, l = l1 ++ t :: l2 ∧ m = l1 ++ l2 ∧ s.acceptsCommand c (toCommand c t).addr = true ∧
      ∀ y ∈ l1, s.acceptsCommand c (toCommand c y).addr = false := by
  induction l generalizing m with
  | nil => cases h
  | cons x l ih =>
    simp only [pick] at h
    split at h
    · cases h; exact ⟨[], l, rfl, rfl, by assumption, by simp⟩
    · rename_i hx
      cases hp : s.pick c l with
      | none => rw [hp] at h; cases h
      | some y =>
        rw [hp] at h
        simp only [Option.map_some, Option.some.injEq, Prod.mk.injEq] at h
        obtain ⟨h1, h2⟩ := h
        obtain ⟨l1, l2, e1, e2, e3, e4⟩ := ih (m := y.2) (by rw [hp, ← h1])
        refine ⟨x :: l1, l2, by rw [e1]; rfl, by rw [← h2, e2]; rfl, e3, fun z hz => ?_⟩
        rcases List.mem_cons.1 hz with rfl | hz
        · simpa using hx
        · exact e4 z hz

/-- A transaction becomes the last command of its queue. -/
theorem ord_added {c : Cfg} {s : Ctrl} (ho : Ord c s) (t : Trans) {s' : Ctrl}
    (hq : s'.queues = fun j => if j = queueIndex c (toCommand c t).addr then
      s.queues (queueIndex c (toCommand c t).addr) ++ [toCommand c t] else s.queues j)
    (hp : s'.pendRd = s.pendRd)
    (hw : t.write = true → 0 < nRd s t.addr →
      ∃ y ∈ s.queues (queueIndex c (c.map t.addr)), y.hex = t.addr ∧ y.cmd.isRead)
    (hu : ∀ l1 u l2, s'.unifiedQ = l1 ++ u :: l2 → u.write = true → 0 < nRd s u.addr →
      (∃ y ∈ l1, y.addr = u.addr ∧ y.write = false) ∨ (u.addr = t.addr ∧ t.write = false) ∨
      ∃ y ∈ s.queues (queueIndex c (c.map u.addr)), y.hex = u.addr ∧ y.cmd.isRead)
    (hr : c.unified → s'.readQ = []) : Ord c s' := by
  have hn : ∀ a, nRd s' a = nRd s a := by intro a; unfold nRd; rw [hp]
  have hsub : ∀ i y, y ∈ s.queues i → y ∈ s'.queues i := by
    intro i y hy
    rw [hq]
    dsimp only
    split
    · rename_i h
      rw [h] at hy; exact List.mem_append_left _ hy
    · exact hy
  refine ⟨fun i l1 x l2 hi hx ha => ?_, fun l1 u l2 hi hx ha => ?_, hr⟩
  · rw [hn] at ha
    rw [hq] at hi
    dsimp only at hi
    split at hi
    · rename_i hij
      rcases List.eq_nil_or_concat l2 with rfl | ⟨m, z, rfl⟩
      · obtain ⟨e1, e2⟩ := List.append_inj' hi rfl
        simp only [List.cons.injEq, and_true] at e2
        subst e2
        rw [toCommand_write] at hx
        obtain ⟨y, hy, hy'⟩ := hw hx ha
        refine ⟨y, ?_, hy'⟩
        rw [← e1]
        exact hy
      · have : l1 ++ x :: m.concat z = (l1 ++ x :: m) ++ [z] := by simp
        rw [this] at hi
        obtain ⟨e1, e2⟩ := List.append_inj' hi rfl
        exact ho.cmd _ l1 x m e1 hx ha
    · exact ho.cmd i l1 x l2 hi hx ha
  · rw [hn] at ha
    rcases hu l1 u l2 hi hx ha with h | ⟨h1, h2⟩ | ⟨y, hy, hy'⟩
    · exact .inl h
    · right
      refine ⟨toCommand c t, ?_, h1.symm, by rw [toCommand_read, h2]; rfl⟩
      rw [hq, h1]
      dsimp only
      rw [if_pos (by rw [toCommand_addr])]
      simp
    · exact .inr ⟨y, hsub _ _ hy, hy'⟩

theorem ord_schedule {c : Cfg} {s : Ctrl} (hb : Book c s) (ho : Ord c s) : Ord c (s.schedule c) := by
  have key : ∀ s : Ctrl, Book c s → Ord c s → Ord c (if c.unified then
      match s.pick c s.unifiedQ with
      | none => s
      | some (t, l) => { s.addCommand c (toCommand c t) with unifiedQ := l }
    else if 0 < s.draining then
      match s.pick c s.writeBuf with
      | none => s
      | some (t, l) =>
        if 0 < s.pendRd.countP fun x => x.addr = t.addr then { s with draining := 0 }
        else { s.addCommand c (toCommand c t) with writeBuf := l, draining := s.draining - 1 }
    else
      match s.pick c s.readQ with
      | none => s
      | some (t, l) => { s.addCommand c (toCommand c t) with readQ := l }) := by
    intro s hb ho
    split
    · rename_i huni
      split
      · exact ho
      · rename_i t m hp
        obtain ⟨l1, l2, e1, e2, e3, e4⟩ := pick_before hp
        rw [addCommand_eq e3]
        refine ord_added ho t rfl rfl (fun hw ha => ?_) (fun m1 u m2 hi hw ha => ?_) (fun h => ho.rq h)
        · rcases ho.uni l1 t l2 e1 hw ha with ⟨y, hy, hy1, _⟩ | h
          · have := e4 y hy
            rw [toCommand_addr, hy1, ← toCommand_addr, e3] at this
            cases this
          · exact h
        · dsimp only at hi
          rw [e2] at hi
          rcases split_insert (x := t) hi with ⟨k, hk⟩ | ⟨k, hk, hk'⟩
          · rcases ho.uni m1 u k (e1.trans hk) hw ha with h | h
            · exact .inl h
            · exact .inr (.inr h)
          · rcases ho.uni k u m2 (e1.trans hk) hw ha with ⟨y, hy, hy1, hy2⟩ | h
            · rcases hk' y hy with h | rfl
              · exact .inl ⟨y, h, hy1, hy2⟩
              · exact .inr (.inl ⟨hy1.symm, hy2⟩)
            · exact .inr (.inr h)
    · rename_i huni
      have hu0 : ∀ (t : Trans) (l1 : List Trans) u l2, s.unifiedQ = l1 ++ u :: l2 → u.write = true → 0 < nRd s u.addr →
          (∃ y ∈ l1, y.addr = u.addr ∧ y.write = false) ∨ (u.addr = t.addr ∧ t.write = false) ∨
          ∃ y ∈ s.queues (queueIndex c (c.map u.addr)), y.hex = u.addr ∧ y.cmd.isRead := fun t l1 u l2 h1 h2 h3 => by
        rcases ho.uni l1 u l2 h1 h2 h3 with h | h
        · exact .inl h
        · exact .inr (.inr h)
      split
      · split
        · exact ho
        · rename_i t m hp
          split
          · exact SameBook.ord (s := s) ⟨rfl, rfl, rfl, rfl, rfl, rfl⟩ ho
          · rename_i hz
            obtain ⟨l1, l2, e1, e2, e3, e4⟩ := pick_before hp
            rw [addCommand_eq e3]
            exact ord_added ho t rfl rfl (fun hw ha => absurd ha hz) (hu0 t) (fun h => absurd h huni)
      · split
        · exact ho
        · rename_i t m hp
          obtain ⟨l1, l2, e1, e2, e3, e4⟩ := pick_before hp
          have hw : t.write = false := hb.rq t (by rw [e1]; simp)
          rw [addCommand_eq e3]
          exact ord_added ho t rfl rfl (by rw [hw]; intro h; cases h) (hu0 t) (fun h => absurd h huni)
  unfold schedule
  split
  · split
    · exact key { s with draining := s.writeBuf.length }
        (SameBook.book (s := s) ⟨rfl, rfl, rfl, rfl, rfl, rfl⟩ hb)
        (SameBook.ord (s := s) ⟨rfl, rfl, rfl, rfl, rfl, rfl⟩ ho)
    · exact key _ hb ho
  · exact key _ hb ho

/-- An entry is put at the end of the common queue. -/
theorem ord_unified {c : Cfg} {s s' : Ctrl} (ho : Ord c s) (t : Trans) (hq : s'.queues = s.queues)
    (hu : s'.unifiedQ = s.unifiedQ ++ [t]) (hr : s'.readQ = s.readQ)
    (hn : ∀ a, t.write = true ∨ a ≠ t.addr → nRd s' a = nRd s a)
    (h1 : t.write = true → 0 < nRd s t.addr → (∃ y ∈ s.unifiedQ, y.addr = t.addr ∧ y.write = false) ∨
      ∃ y ∈ s.queues (queueIndex c (c.map t.addr)), y.hex = t.addr ∧ y.cmd.isRead)
    (h2 : t.write = false → (∀ i, ∀ x ∈ s.queues i, x.cmd.isWrite → x.hex ≠ t.addr) ∧
      ∀ x ∈ s.unifiedQ, x.write = true → x.addr ≠ t.addr) : Ord c s' := by
  refine ⟨fun i l1 x l2 hi hx ha => ?_, fun l1 u l2 hi hx ha => ?_, fun h => by rw [hr]; exact ho.rq h⟩
  · rw [hq] at hi
    refine ho.cmd i l1 x l2 hi hx ?_
    rw [← hn]
    · exact ha
    · cases hw : t.write with
      | true => exact .inl rfl
      | false => exact .inr ((h2 hw).1 i x (by rw [hi]; simp) hx)
  · rw [hq]
    rw [hu] at hi
    rcases List.eq_nil_or_concat l2 with rfl | ⟨m, z, rfl⟩
    · obtain ⟨e1, e2⟩ := List.append_inj' hi rfl
      simp only [List.cons.injEq, and_true] at e2
      subst e2
      rw [hn _ (.inl hx)] at ha
      rw [← e1]
      exact h1 hx ha
    · have : l1 ++ u :: m.concat z = (l1 ++ u :: m) ++ [z] := by simp
      rw [this] at hi
      obtain ⟨e1, e2⟩ := List.append_inj' hi rfl
      refine ho.uni l1 u m e1 hx ?_
      rw [← hn]
      · exact ha
      · cases hw : t.write with
        | true => exact .inl rfl
        | false => exact .inr ((h2 hw).2 u (by rw [e1]; simp) hx)

theorem ord_add {c : Cfg} {s : Ctrl} (hb : Book c s) (hf : Full c s) (ho : Ord c s) (a : Nat) (w : Bool) :
    Ord c (s.add c a w) := by
  unfold add
  cases w with
  | true =>
    simp only [if_true]
    split
    · split
      · rename_i huni
        refine ord_unified ho ⟨a, true, 0⟩ rfl rfl rfl (fun _ _ => rfl) (fun _ ha => ?_) (by intro h; cases h)
        have h := hf.rd _ ha
        unfold rIn at h
        rw [ho.rq huni] at h
        simp only [List.countP_nil, Nat.add_zero] at h
        rcases Nat.eq_zero_or_pos ((s.queues (queueIndex c (c.map a))).countP fun x =>
          decide (x.hex = a) && x.cmd.isRead) with h0 | h0
        · left
          rw [h0, Nat.zero_add] at h
          obtain ⟨y, hy, hy'⟩ := List.countP_pos_iff.1 h
          simp only [Bool.and_eq_true, decide_eq_true_eq, Bool.not_eq_true'] at hy'
          exact ⟨y, hy, hy'⟩
        · right
          obtain ⟨y, hy, hy'⟩ := List.countP_pos_iff.1 h0
          simp only [Bool.and_eq_true, decide_eq_true_eq] at hy'
          exact ⟨y, hy, hy'⟩
      · exact ⟨ho.cmd, ho.uni, ho.rq⟩
    · exact ⟨ho.cmd, ho.uni, ho.rq⟩
  | false =>
    simp only [Bool.false_eq_true, if_false]
    split
    · exact ⟨ho.cmd, ho.uni, ho.rq⟩
    · rename_i hw0
      have hw0 : nWr s a = 0 := by unfold nWr; omega
      have hwz := hb.wr a
      have hw1 : wIn c s a = 0 := by omega
      unfold wIn at hw1
      simp only [Nat.add_eq_zero_iff, List.countP_eq_zero] at hw1
      have hcq : ∀ i, ∀ x ∈ s.queues i, x.cmd.isWrite → x.hex ≠ a := by
        intro i x hx hxw hxa
        obtain ⟨h1, w', h2⟩ := hb.cmds i x hx
        have h3 : x.addr = c.map x.hex := by rw [h2]; rfl
        rw [h3, hxa] at h1
        rw [h1] at hx
        have := hw1.1.1 x hx
        simp [hxa, hxw] at this
      have huq : ∀ x ∈ s.unifiedQ, x.write = true → x.addr ≠ a := by
        intro x hx hxw hxa
        have := hw1.2 x hx
        simp [hxa, hxw] at this
      have hn : ∀ b, b ≠ a → (s.pendRd ++ [(⟨a, false, 0⟩ : Trans)]).countP (fun t => t.addr = b) = nRd s b := by
        intro b hba
        unfold nRd
        simp [List.countP_append, Ne.symm hba]
      have mk : ∀ r : List Trans, (c.unified → r = []) → Ord c { s with pendRd := s.pendRd ++ [⟨a, false, 0⟩], readQ := r } := by
        intro r hr
        refine ⟨fun i l1 x l2 hi hx ha => ?_, fun l1 u l2 hi hx ha => ?_, hr⟩
        · have hne := hcq i x (by rw [show s.queues i = _ from hi]; simp) hx
          unfold nRd at ha
          dsimp only at ha
          rw [hn _ hne] at ha
          exact ho.cmd i l1 x l2 hi hx ha
        · have hne := huq u (by rw [show s.unifiedQ = _ from hi]; simp) hx
          unfold nRd at ha
          dsimp only at ha
          rw [hn _ hne] at ha
          exact ho.uni l1 u l2 hi hx ha
      split
      · split
        · refine ord_unified ho ⟨a, false, 0⟩ rfl rfl rfl (fun b hb => ?_) (by intro h; cases h) (fun _ => ⟨hcq, huq⟩)
          rcases hb with h | h
          · cases h
          · exact hn b h
        · rename_i hu
          exact mk _ (fun h => absurd h hu)
      · exact mk s.readQ ho.rq

end RadSim.DramSim
