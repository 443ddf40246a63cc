import Verif.Lemmas.DlrmFiRun

/-! Sound instructions never make the feature-interaction module fail. -/
namespace RadSim.Dlrm

open Spec

theorem copy_total (cfg : Cfg) (tmp : Vec) :
    ∀ n e acc, acc.length + n ≤ cfg.outElems → (0 < n → e + n ≤ tmp.length) →
      ∃ v, copy cfg tmp n e acc = .ok v ∧ v.length = acc.length + n := by
  intro n
  induction n with
  | zero => intro e acc _ _; exact ⟨acc, rfl, by simp⟩
  | succ n ih =>
    intro e acc h1 h2
    have h2' := h2 (by omega)
    unfold copy
    rw [if_pos (by omega), List.getElem?_eq_getElem (by omega)]
    obtain ⟨v, hv, hl⟩ := ih (e + 1) (acc ++ [tmp[e]]) (by simp; omega) (fun _ => by omega)
    exact ⟨v, hv, by rw [hl]; simp; omega⟩

theorem steps_total (cfg : Cfg) :
    ∀ (inst : Inst) (f : Nat → List Vec) (acc : Vec),
      (∀ st ∈ inst, st.start ≤ st.stop → st.stop < cfg.inElems) →
      acc.length + (inst.map fun st => st.stop + 1 - st.start).sum ≤ cfg.outElems →
      (inst.Pairwise fun a b => a.fifo ≠ 0 → a.pop = true → b.fifo ≠ a.fifo) →
      (∀ st ∈ inst, st.fifo ≠ 0 → f (st.fifo - 1) ≠ []) →
      (∀ c, ∀ v ∈ f c, v.length = cfg.inElems) →
      ∃ f' v, steps cfg inst f acc = .ok (f', v) ∧ ∀ c, ∀ v ∈ f' c, v.length = cfg.inElems := by
  intro inst
  induction inst with
  | nil => intro f acc _ _ _ _ hl; exact ⟨f, acc, rfl, hl⟩
  | cons st r ih =>
    intro f acc hw hfit honce hne hl
    have hfit' : acc.length + (st.stop + 1 - st.start) +
        (r.map fun st => st.stop + 1 - st.start).sum ≤ cfg.outElems := by
      simp only [List.map_cons, List.sum_cons] at hfit
      omega
    have hwr : ∀ x ∈ r, x.start ≤ x.stop → x.stop < cfg.inElems :=
      fun x hx => hw x (by simp [hx])
    have hws := hw st (by simp)
    rw [List.pairwise_cons] at honce
    unfold steps
    by_cases h0 : st.fifo = 0
    · rw [if_pos h0]
      obtain ⟨v, hv, hvl⟩ := copy_total cfg (List.replicate cfg.inElems 0)
        (st.stop + 1 - st.start) st.start acc (by omega) (fun hp => by
          rw [List.length_replicate]
          have := hws (by omega)
          omega)
      rw [hv]
      exact ih f v hwr (by omega) honce.2 (fun x hx => hne x (by simp [hx])) hl
    · rw [if_neg h0]
      have hn := hne st (by simp) h0
      cases hq : f (st.fifo - 1) with
      | nil => exact absurd hq hn
      | cons w q =>
        have hwl : w.length = cfg.inElems := hl _ w (by rw [hq]; simp)
        obtain ⟨v, hv, hvl⟩ := copy_total cfg w
          (st.stop + 1 - st.start) st.start acc (by omega) (fun hp => by
            rw [hwl]
            have := hws (by omega)
            omega)
        dsimp only
        rw [hv]
        refine ih _ v hwr (by omega) honce.2 ?_ ?_
        · intro x hx hx0
          have hxr := hne x (by simp [hx]) hx0
          split
          · rename_i hp
            have := honce.1 x hx h0 hp
            unfold upd
            rw [if_neg (by omega)]
            exact hxr
          · exact hxr
        · intro c u hu
          split at hu
          · unfold upd at hu
            split at hu
            · exact hl (st.fifo - 1) u (by rw [hq]; simp [hu])
            · exact hl c u hu
          · exact hl c u hu

theorem ready_total (cfg : Cfg) (empty : Nat → Bool) :
    ∀ (inst : Inst), (∀ st ∈ inst, st.fifo ≤ cfg.numCh) → ∃ b, ready cfg empty inst = .ok b := by
  intro inst
  induction inst with
  | nil => intro _; exact ⟨true, rfl⟩
  | cons a r ih =>
    intro h
    obtain ⟨b, hb⟩ := ih (fun x hx => h x (by simp [hx]))
    have := h a (by simp)
    unfold ready
    split
    · exact ⟨b, hb⟩
    · rw [if_pos (by omega), hb]
      exact ⟨_, rfl⟩

/-- What keeps the module from failing. -/
structure Safe (cfg : Cfg) (s : FiSt) : Prop where
  pc : s.pc < cfg.prog.length
  dest : s.dest < cfg.numOut
  tv : ∀ ch < cfg.numOut, s.tvalid ch = !(s.outF ch).isEmpty
  emp : ∀ c < cfg.numCh, s.empty c = (s.inF c).isEmpty
  len : ∀ c, ∀ v ∈ s.inF c, v.length = cfg.inElems

theorem unpack_length (n w : Nat) : (unpack n w).length = n := by
  induction n generalizing w with
  | zero => rfl
  | succ n ih => simp [unpack, ih]

theorem Safe.execute {cfg : Cfg} (hs : ∀ inst ∈ cfg.prog, Sound cfg inst) {s : FiSt}
    (h : Safe cfg s) (f : Nat → List Vec) (hl : ∀ c, ∀ v ∈ f c, v.length = cfg.inElems)
    (hge : ∀ c < cfg.numCh, s.inF c ≠ [] → f c ≠ []) :
    ∃ s', Dlrm.execute cfg { s with inF := f } = .ok s' ∧ s'.pc < cfg.prog.length ∧
      s'.dest < cfg.numOut ∧ (∀ c, ∀ v ∈ s'.inF c, v.length = cfg.inElems) ∧ Same s s' := by
  have hpc := h.pc
  have hdest := h.dest
  have hin : cfg.prog[s.pc]? = some cfg.prog[s.pc] := List.getElem?_eq_getElem hpc
  have hso := hs _ (List.getElem_mem hpc)
  obtain ⟨b, hb⟩ := ready_total cfg s.empty cfg.prog[s.pc] hso.channel
  unfold Dlrm.execute
  dsimp only
  rw [hin]
  dsimp only
  rw [hb]
  have hstay : ∃ s', (Except.ok (ε := Fail) { s with inF := f }) = .ok s' ∧
      s'.pc < cfg.prog.length ∧ s'.dest < cfg.numOut ∧
      (∀ c, ∀ v ∈ s'.inF c, v.length = cfg.inElems) ∧ Same s s' :=
    ⟨_, rfl, hpc, hdest, hl, ⟨rfl, rfl, rfl, rfl, rfl, fun _ => ⟨[], by simp⟩⟩⟩
  cases b with
  | false => exact hstay
  | true =>
    dsimp only
    rw [if_pos hdest]
    split
    · exact hstay
    · obtain ⟨f', v, hst, hl'⟩ := steps_total cfg _ f [] hso.within
        (by simpa using hso.fits) hso.once (fun st hst h0 => by
          have hc := hso.channel st hst
          refine hge _ (by omega) ?_
          have he := ready_true cfg s.empty _ hb st hst h0
          rw [h.emp _ (by omega)] at he
          intro hnil
          rw [hnil] at he
          cases he) hl
      rw [hst]
      refine ⟨_, rfl, ?_, ?_, hl', ⟨rfl, rfl, rfl, rfl, rfl, fun ch => ?_⟩⟩
      · dsimp only; split <;> omega
      · dsimp only; split <;> omega
      · dsimp only [upd]
        split
        · rename_i hc; subst hc; exact ⟨_, rfl⟩
        · exact ⟨[], by simp⟩

theorem Safe.tick {cfg : Cfg} (hs : ∀ inst ∈ cfg.prog, Sound cfg inst) {s : FiSt}
    (h : Safe cfg s) (i : FiIn) : ∃ s', fiTick cfg s i = .ok s' ∧ Safe cfg s' := by
  obtain ⟨s', he, hp, hd, hl, hsame⟩ := h.execute hs (accept cfg i s.inF)
    (by
      intro c v hv
      unfold accept at hv
      split at hv
      · rcases List.mem_append.mp hv with hv | hv
        · exact h.len c v hv
        · rw [List.mem_singleton.mp hv]; exact unpack_length _ _
      · exact h.len c v hv)
    (by
      intro c _ hne
      unfold accept
      split
      · simp
      · exact hne)
  unfold fiTick
  rw [he]
  unfold finish
  dsimp only
  rw [popsEmpty_false hsame h.tv]
  refine ⟨_, rfl, hp, hd, ?_, ?_, hl⟩
  · intro ch hch
    dsimp only
    rw [if_pos hch, if_pos hch]
  · intro c hc
    dsimp only
    rw [if_pos hc]

theorem safe_run {cfg : Cfg} (hs : ∀ inst ∈ cfg.prog, Sound cfg inst) (hp : cfg.prog ≠ [])
    (ho : 0 < cfg.numOut) (ins : Nat → FiIn) :
    ∀ n, ∃ s, fiAt cfg ins n = .ok s ∧ Safe cfg s := by
  intro n
  induction n with
  | zero =>
    exact ⟨fiInit, rfl, List.length_pos_iff.mpr hp, ho, fun _ _ => rfl, fun _ _ => rfl,
      fun c v hv => by cases hv⟩
  | succ n ih =>
    obtain ⟨s, h1, h2⟩ := ih
    rw [fiAt, h1]
    exact h2.tick hs (ins n)

end RadSim.Dlrm
