import Verif.Lemmas.MlpWhole
import Verif.Lemmas.MlpLive
import Verif.Lemmas.AxisNocLook

/-! # The modules of the design `mlp` take what they are shown -/

namespace RadSim.Mlp

open AddDesign (Fifo FifoErr)
open AxisNoc (In Offered nodeOf portOf deliveredAt acceptedFor)
open Net (mesh Allocs)

variable {σ τ ρ ρ' : Type}

/-- A matrix vector multiplier whose FIFOs are not too full takes a beat with a tag it knows. -/
theorem Follows.ready {c : Mvm} {s : Sig} {h : Seen} {r : Ref} {d p f : List Out} (F : Follows c h s r d p f)
    (hi : h.ins.length + 4 < c.fifoSize) (hr : h.reds.length + 4 < c.fifoSize) (ho : tagOf s.rxUser = 3 ∨ tagOf s.rxUser = 2) :
    s.wire.rxReady = true := by
  have hu := Reach.uses F.reach
  simp only [Ref.start] at hu
  have h1 := congrArg List.length F.ins
  have h2 := congrArg List.length F.reds
  simp only [List.length_append] at h1 h2
  obtain ⟨z, hz⟩ := F.ififo
  obtain ⟨z', hz'⟩ := F.rfifo
  obtain ⟨room, hcalm⟩ := F.calm
  have e1 : s.reg.ififo.almostFull = false := by
    rw [hz.almostFull, decide_eq_false_iff_not]
    simp only [Mvm.inCfg]
    omega
  have e2 : s.reg.rfifo.almostFull = false := by
    rw [hz'.almostFull, decide_eq_false_iff_not]
    simp only [Mvm.inCfg]
    omega
  rw [← hcalm.wire]
  simp only [assign, tag, e1, e2]
  rcases ho with h | h <;> change s.rxUser / 8192 % 8 = _ at h <;> simp [h]

variable {VA : Alloc.Cls σ ρ} {SA : Alloc.Cls τ ρ'} {d : Params} {va : Nat → σ} {sa : Nat → τ} {t : Nat → Tick ρ ρ'}
  {rng : Nat → Nat × Nat} {n : Nat}

/-- The collector in a period. -/
theorem coll_step {x y : Sys σ τ} {tk : Tick ρ ρ'} (h : step VA SA d tk x = .ok y) :
    if tk.edge then collTick d.q.fifoSize d.D.dim ((shown x.noc (d.node .coll)).map fun o => unpack d.D.dim o.tdata) x.coll =
      .ok y.coll else y.coll = x.coll := by
  unfold step at h
  split at h
  · cases h
  · dsimp only at h
    split at h
    · rename_i he
      rw [if_pos he]
      split at h
      · cases h
      · rename_i hm
        cases h
        unfold modules at hm
        split at hm
        · cases hm
        · split at hm
          · cases hm
          · split at hm
            · cases hm
            · rename_i hc
              cases hm
              exact hc
    · rename_i he
      rw [if_neg he]
      cases h
      rfl

/-- The collector holds one vector at most: the driver takes it at the next edge. -/
theorem coll_few (hw : Works d rng) (ha : Allocs VA SA (mesh d.noc.m) d.noc.b va sa) :
    ∀ n, (∀ k < n, Paced d (t k)) → (xs VA SA d va sa t n).coll.mem.length ≤ 1
  | 0, _ => Nat.zero_le _
  | n + 1, ht => by
    have ih := coll_few hw ha n fun k hk => ht k (by omega)
    have hg := goods (VA := VA) (SA := SA) hw ha ht
    have h1 := hg n (by omega)
    have hs := coll_step (h1.next (hg (n + 1) (by omega)))
    split at hs
    · obtain ⟨z, hz⟩ := h1.check.holds
      have he : (xs VA SA d va sa t n).coll.empty = (xs VA SA d va sa t n).coll.mem.isEmpty := hz.empty
      unfold collTick Fifo.tick at hs
      rw [he] at hs
      cases hm : (xs VA SA d va sa t n).coll.mem with
      | nil =>
        rw [hm] at hs
        simp only [List.isEmpty_nil, Bool.not_true, Bool.false_eq_true, if_false, List.nil_append] at hs
        split at hs
        · split at hs
          · cases hs
          · rw [← Except.ok.inj hs]; simp [Fifo.show]
        · rw [← Except.ok.inj hs]; simp [Fifo.show]
      | cons v l =>
        rw [hm, List.length_cons] at ih
        obtain rfl : l = [] := List.length_eq_zero_iff.1 (by omega)
        rw [hm] at hs
        simp only [List.isEmpty_cons, Bool.not_false, if_true, List.nil_append] at hs
        split at hs
        · split at hs
          · cases hs
          · rw [← Except.ok.inj hs]; simp [Fifo.show]
        · rw [← Except.ok.inj hs]; simp [Fifo.show]
    · rw [hs]
      exact ih

/-- What a port shows is for the module there. -/
theorem shown_right (hw : Works d rng) (ha : Allocs VA SA (mesh d.noc.m) d.noc.b va sa) (ht : ∀ k ≤ n, Paced d (t k)) {u p : Nat}
    (hu : u < d.noc.m.nodes) (hp : p < (d.noc.mc u).n) {o : AxisOut}
    (ho : (((xs VA SA d va sa t n).noc.master u).port p) = some o) :
    p = 0 ∧ (u = d.node .coll ∨ ∃ l m, l < d.D.layers ∧ m < d.D.mvms l ∧ u = d.node (.mvm l m) ∧
      (tagOf o.tuser.toNat = 3 ∨ tagOf o.tuser.toNat = 2)) := by
  have hg := good_all (VA := VA) (SA := SA) hw ha n fun k hk => ht k (by omega)
  obtain ⟨i', y, hy, hti, hof, hgot, hdel⟩ := AxisNoc.looks (P := Sends d) hw.setup ha (fun u p b h => (sends_ok hw h).1)
    (i := nocIns VA SA d va sa t) (n := n) (fun k hk => (ht k hk).time) hg.offered hg.noc
  have hmid : Mid d y := by
    have h := hg.mid hw
    refine ⟨fun l hl m hm => ?_, fun m hm => ?_, ?_⟩
    · rw [hgot _ (hw.placed (.mvm l m) ⟨hl, hm⟩).1]
      exact h.mvm l hl m hm
    · rw [hgot _ (hw.placed (.disp m) hm).1]
      exact h.disp m hm
    · rw [hgot _ (hw.placed .coll trivial).1]
      exact h.coll
  have hinv := AxisNoc.inv_all hw.setup ha (P := Sends d) (fun u p b h => (sends_ok hw h).1) (n + 1) hti hof
  have hst : AxisNoc.st VA SA d.noc va sa i' (n + 1) = y := by
    have := hinv.ok
    rw [hy] at this
    exact (Except.ok.inj this).symm
  have hd := hdel u hu p hp
  rw [ho] at hd
  have hmem : AxisNoc.beatOut o ∈ deliveredAt y u p := by
    rw [hd]
    simp
  obtain ⟨marks, hlen, hmarks, hpk⟩ := AxisNoc.C93_delivered hw.setup ha hti (fun k hk u hu beats seen hm p hp b hb =>
    sends_ok hw (hof k hk u hu beats seen hm p hp b hb)) hy hu hp
  have e : (marks.zip (deliveredAt y u p)).map (·.2) = deliveredAt y u p := List.map_snd_zip (by omega)
  rw [← e] at hmem
  obtain ⟨z, hz, -⟩ := List.mem_map.1 hmem
  have hw1 := hmarks _ (List.of_mem_zip hz).1
  have hm : z.2 ∈ acceptedFor d.noc y z.1.1 u p z.1.2 := by
    refine ((hpk z.1.1 hw1 z.1.2).1).subset (List.mem_map.2 ⟨z, ?_, rfl⟩)
    rw [List.mem_filter]
    exact ⟨hz, by simp⟩
  unfold acceptedFor at hm
  obtain ⟨b, hb, -⟩ := List.mem_map.1 hm
  rw [List.mem_filter, decide_eq_true_eq] at hb
  have hgood := hinv.good z.1.1 hw1 b (by rw [hst]; exact hb.1)
  obtain ⟨p', hp', b', ⟨rfl, src, hs, dest, hde, v, hv, user, rfl⟩, rfl⟩ := hgood
  have hp0 : p = 0 := hb.2.2.1.symm
  have hud : u = d.node dest := by
    rw [← hb.2.1]
    exact (hw.dests hw1 hde v user).1
  subst hp0 hud
  refine ⟨rfl, ?_⟩
  obtain ⟨L, hL1, hL2⟩ := inbox_marked hw ha hti hof hy hde
  have hin : (unpack d.D.dim (AxisNoc.beatOut o).tdata, (AxisNoc.beatOut o).tuser.toNat) ∈ L.map (·.2) := by
    rw [hL1]
    unfold inbox
    rw [e] at hmem
    exact List.mem_map.2 ⟨_, hmem, rfl⟩
  cases dest with
  | coll => exact .inl rfl
  | mvm l m => exact .inr ⟨l, m, hde.1, hde.2, rfl, (hmid.right hw hde.1 hde.2 hL2).2 _ hin⟩
  | disp m =>
    exfalso
    obtain ⟨e, he, -⟩ := List.mem_map.1 hin
    have hsrc := (hL2 e he).1
    have hout := (hL2 e he).2.subset (List.mem_map.2 ⟨e, by simp [he], rfl⟩)
    generalize e.1 = src at hsrc hout
    cases src with
    | coll => rw [outbox_coll hmid] at hout; cases hout
    | disp m' =>
      obtain ⟨sent, h1, h2⟩ := hmid.disp m' hsrc
      rw [outbox_disp hw hsrc h1 h2 hde] at hout
      simp at hout
    | mvm l' m' =>
      obtain ⟨out, sent, h1, -, h3, h4⟩ := hmid.mvm l' hsrc.1 m' hsrc.2
      rw [outbox_mvm hw hsrc.1 hsrc.2 h1 h3 h4 hde] at hout
      obtain ⟨e', he', -⟩ := List.mem_map.1 hout
      rw [List.mem_filter, decide_eq_true_eq] at he'
      rcases (sent_kind hw.ok hsrc.1 hsrc.2 h3 h1 he'.1).2 with ⟨-, -, h5, -⟩ | ⟨-, -, k, -, -, -, h5, -⟩ | ⟨-, -, -, h5, -⟩ <;>
        (rw [h5] at he'; cases he'.2)

/-- What a port shows is taken at the next edge. -/
theorem shown_taken (hw : Works d rng) (hsm : Small d.D d.q) (ha : Allocs VA SA (mesh d.noc.m) d.noc.b va sa)
    (ht : ∀ k ≤ n, Paced d (t k)) {u p : Nat} (hu : u < d.noc.m.nodes) (hp : p < (d.noc.mc u).n)
    (ho : (((xs VA SA d va sa t n).noc.master u).port p).isSome) : readies d (xs VA SA d va sa t n) u p = true := by
  obtain ⟨o, ho⟩ := Option.isSome_iff_exists.1 ho
  have hg := good_all (VA := VA) (SA := SA) hw ha n fun k hk => ht k (by omega)
  have hfs : 4 < d.q.fifoSize := by
    have := (hsm 0 hw.ok.layers).1
    omega
  obtain ⟨rfl, hc⟩ := shown_right hw ha ht hu hp ho
  rcases hc with rfl | ⟨l, m, hl, hm, rfl, htag⟩
  · unfold readies
    rw [(hw.apart (d.node .coll) .coll).2 ⟨trivial, rfl⟩]
    have h1 := coll_few (VA := VA) (SA := SA) hw ha n fun k hk => ht k (by omega)
    obtain ⟨z, hz⟩ := hg.check.holds
    have h2 : (xs VA SA d va sa t n).coll.almostFull = decide (d.q.fifoSize - 1 ≤ (xs VA SA d va sa t n).coll.mem.length) :=
      hz.almostFull
    simp only [collReady, h2, decide_true, Bool.true_and, Bool.not_eq_true', decide_eq_false_iff_not]
    omega
  · obtain ⟨h, r, p, q, f, I, R, -, -, -, hus⟩ := hg.mvm l hl m hm
    unfold readies
    rw [(hw.apart (d.node (.mvm l m)) (.mvm l m)).2 ⟨⟨hl, hm⟩, rfl⟩]
    simp only [decide_true, Bool.true_and]
    obtain ⟨hs1, hs2⟩ := hsm l hl
    have hq : (d.D.mvm d.q l m).fifoSize = d.q.fifoSize := rfl
    refine I.ready ?_ ?_ ?_
    · have := R.few
      omega
    · by_cases hm0 : m = 0
      · rw [R.noReds hm0]
        simp only [List.length_nil]
        omega
      · have := R.fewReds
        have := hs2 (by omega)
        omega
    · rw [hus o ho]
      exact htag

end RadSim.Mlp
