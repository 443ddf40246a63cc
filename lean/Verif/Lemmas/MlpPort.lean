import Verif.Lemmas.AddDesign
import Verif.Lemmas.MlpFifo
import Verif.Lemmas.MlpSys

/-! # The ports of the design `mlp`: what goes through an adapter in a period, and how vectors are packed -/

namespace RadSim.Mlp

open AddDesign (isNodeM isNode)

/-! ## sink side adapter -/

theorem eject_port {c : MasterCfg} {s s' : MasterState} {a : Option BsFlit} (h : ejectStep c s a = .ok s') : s'.port = s.port := by
  unfold ejectStep at h
  dsimp only at h
  split at h
  · cases h; rfl
  · split at h
    · split at h <;> (cases h; rfl)
    · cases h

theorem pop_port {c : MasterCfg} {s s' : MasterState} {e : Nat} {b : Bool} {v : List Nat} (h : popPhase c s e b = .ok (s', v)) :
    s'.port = s.port := by
  unfold popPhase at h
  repeat' split at h
  all_goals first | cases h; rfl | cases h

theorem depack_port {c : MasterCfg} {s s' : MasterState} {cm : Bool} {v : List Nat} (h : depackStep c s cm = .ok (s', v)) :
    s'.port = s.port := by
  have h0 : (if cm then { s with push := s.pushNext } else s).port = s.port := by cases cm <;> rfl
  unfold depackStep at h
  dsimp only at h
  rw [← h0]
  generalize (if cm then { s with push := s.pushNext } else s) = s at h
  split at h
  · cases h
  · split at h
    · cases h
    · split at h
      · exact pop_port h
      · split at h
        · cases h
        · exact (pop_port h).trans rfl

/-- What a port hands over at an edge. -/
theorem handshakes_port {c : MasterCfg} (hn : 0 < c.n) (s : MasterState) (r : Nat → Bool) :
    (portHandshakes c s r).filter (fun y => y.1 = 0) = if r 0 then ((s.port 0).map fun o => (0, o)).toList else [] := by
  unfold portHandshakes
  obtain ⟨k, hk⟩ : ∃ k, c.n = k + 1 := ⟨c.n - 1, by omega⟩
  rw [hk, List.range_succ_eq_map, List.filterMap_cons]
  have hrest : (((List.range k).map Nat.succ).filterMap (fun i => if r i then (s.port i).map (fun o => (i, o)) else none)).filter
      (fun y => y.1 = 0) = [] := by
    rw [List.filter_eq_nil_iff]
    intro y hy
    rw [List.mem_filterMap] at hy
    obtain ⟨i, hi, hy⟩ := hy
    obtain ⟨j, -, rfl⟩ := List.mem_map.1 hi
    split at hy
    · rw [Option.map_eq_some_iff] at hy
      obtain ⟨o, -, rfl⟩ := hy
      simp
    · cases hy
  cases hr : r 0
  · simpa [hr] using hrest
  · cases hp : s.port 0
    · simpa [hr, hp] using hrest
    · simp only [if_true, Option.map_some, Option.toList_some, List.filter_cons, decide_true, hrest]

/-- A period with at most one edge of the module clock: without one nothing changes at the ports, with one the port hands over what
it showed before, if the module is ready. -/
theorem sink_period {c : MasterCfg} (hn : 0 < c.n) {r : Nat → Bool} : ∀ {es : List MasterEvent} {s s' : MasterState}
    {h h' : MasterHist}, masterRun c s h es = (h', .ok s') → (∀ r', MasterEvent.node r' ∈ es → r' = r) →
    (es.countP isNodeM = 0 → s'.port = s.port ∧ h'.delivered = h.delivered) ∧
    (es.countP isNodeM = 1 → h'.delivered.filter (fun y => y.1 = 0) =
      h.delivered.filter (fun y => y.1 = 0) ++ if r 0 then ((s.port 0).map fun o => (0, o)).toList else []) := by
  intro es
  induction es with
  | nil => intro s s' h h' hr _; cases hr; simp
  | cons e es ih =>
    intro s s' h h' hr hes
    rw [masterRun] at hr
    split at hr
    · cases hr
    · rename_i h1 s1 he
      have ih := ih hr fun r' hr' => hes r' (by simp [hr'])
      rw [List.countP_cons]
      cases e with
      | noc a =>
        simp only [masterStep, Prod.mk.injEq] at he
        have hd : h1.delivered = h.delivered := by
          rw [← he.1]
          cases s.held <;> rfl
        rw [← hd, ← eject_port he.2]
        simpa [isNodeM] using ih
      | adapter cm =>
        rw [masterStep] at he
        split at he
        · cases he
        · rename_i s2 v hv
          cases he
          rw [← depack_port hv]
          simpa [isNodeM] using ih
      | tick =>
        cases he
        simpa [isNodeM] using ih
      | node r' =>
        have hr' := hes r' (by simp)
        subst hr'
        rw [masterStep, Prod.mk.injEq] at he
        simp only [isNodeM, if_true]
        refine ⟨by omega, fun hc => ?_⟩
        have := (ih.1 (by omega)).2
        rw [this, ← he.1, List.filter_append, handshakes_port hn]

/-! ## vectors as numbers -/

theorem packNat_lt : ∀ v : Vec, packNat v < 2 ^ (32 * v.length)
  | [] => by simp [packNat]
  | x :: v => by
    have h1 := packNat_lt v
    have h2 := x.isLt
    rw [packNat, List.length_cons, Nat.mul_succ, Nat.add_comm (32 * v.length), Nat.pow_add]
    have : 2 ^ 32 * (packNat v + 1) ≤ 2 ^ 32 * 2 ^ (32 * v.length) := Nat.mul_le_mul_left _ h1
    omega

theorem packNat_get : ∀ (v : Vec) (i : Nat) (h : i < v.length), BitVec.ofNat 32 (packNat v / 2 ^ (32 * i)) = v[i]
  | x :: v, 0, _ => by
    apply BitVec.eq_of_toNat_eq
    have := x.isLt
    simp only [packNat, Nat.mul_zero, Nat.pow_zero, Nat.div_one, BitVec.toNat_ofNat, List.getElem_cons_zero]
    omega
  | x :: v, i + 1, h => by
    have h1 := packNat_get v i (by simpa using h)
    rw [List.getElem_cons_succ, ← h1, packNat, Nat.mul_succ, Nat.add_comm (32 * i), Nat.pow_add, ← Nat.div_div_eq_div_mul]
    congr 2
    have := x.isLt
    omega

theorem ofLanes {lanes : Nat} {v : Vec} (hv : v.length = lanes) : (List.range lanes).map (fun i => v.getD i 0) = v := by
  apply List.ext_getElem (by simp [hv])
  intro i h1 h2
  simp [List.getD_eq_getElem?_getD, List.getElem?_eq_getElem h2]

/-- A vector fits its port. -/
theorem pack_lt {lanes : Nat} {v : Vec} (hv : v.length = lanes) : (pack lanes v).toNat < 2 ^ (32 * lanes) := by
  have h1 := packNat_lt v
  unfold pack
  rw [ofLanes hv, BitVec.toNat_ofNat]
  rw [hv] at h1
  exact Nat.lt_of_le_of_lt (Nat.mod_le _ _) h1

/-- Packing loses nothing. -/
theorem unpack_pack {lanes : Nat} (h : 32 * lanes ≤ 512) {v : Vec} (hv : v.length = lanes) : unpack lanes (pack lanes v) = v := by
  have h1 := packNat_lt v
  rw [hv] at h1
  have h2 : packNat v < 2 ^ 512 := Nat.lt_of_lt_of_le h1 (Nat.pow_le_pow_right (by decide) h)
  unfold unpack pack
  rw [ofLanes hv, BitVec.toNat_ofNat, Nat.mod_eq_of_lt h2]
  apply List.ext_getElem (by simp [hv])
  intro i h3 h4
  simp only [List.getElem_map, List.getElem_range]
  exact packNat_get v i h4

/-- A line of numbers in range is read as it is. -/
theorem readLine_eq : ∀ {line : List Int}, (∀ v ∈ line, -2147483648 ≤ v ∧ v < 2147483648) → readLine line = parse line
  | [], _ => rfl
  | v :: vs, h => by
    have h1 := h v (by simp)
    have := readLine_eq (line := vs) fun w hw => h w (by simp [hw])
    rw [readLine, if_neg (by omega), if_neg (by omega), this]
    rfl

/-! ## marked beats -/

/-- If the beats of one source have a tag that no others have, then what arrived with this tag came from it. -/
theorem tagged {κ β : Type} [DecidableEq κ] (g : β → Nat) {L : List (κ × β)} {acc : κ → List β} {a : κ} {tag : Nat}
    (hp : ∀ y ∈ L, (L.filter fun z => z.1 = y.1).map (·.2) <+: acc y.1) (ha : ∀ b ∈ acc a, g b = tag)
    (ho : ∀ y ∈ L, y.1 ≠ a → ∀ b ∈ acc y.1, g b ≠ tag) :
    (L.map (·.2)).filter (fun b => g b = tag) <+: acc a := by
  have hmem : ∀ y ∈ L, y.2 ∈ acc y.1 := by
    intro y hy
    exact (hp y hy).subset (List.mem_map.2 ⟨y, by simp [hy], rfl⟩)
  have e : (L.map (·.2)).filter (fun b => g b = tag) = (L.filter fun z => z.1 = a).map (·.2) := by
    rw [List.filter_map]
    congr 1
    apply List.filter_congr
    intro y hy
    simp only [Function.comp_apply, decide_eq_decide]
    constructor
    · intro h
      by_contra hne
      exact ho y hy hne _ (hmem y hy) h
    · intro h
      exact ha _ (h ▸ hmem y hy)
  rw [e]
  cases hl : L.filter fun z => z.1 = a with
  | nil => exact List.nil_prefix
  | cons y l =>
    have hy : y ∈ L.filter fun z => z.1 = a := by rw [hl]; simp
    rw [List.mem_filter, decide_eq_true_eq] at hy
    have := hp y hy.1
    rw [hy.2, hl] at this
    exact this

/-! ## a module between two edges -/

/-- What the adapter shows as `tready` does not change what a module has done. -/
theorem Follows.settle {c : Mvm} {h : Seen} {s : Sig} {r : Ref} {d q f : List Out} (I : Follows c h s r d q f) (room : Bool) :
    Follows c h (settle c room s s) r d q f ∧ (Mlp.settle c room s s).rxUser = s.rxUser ∧
      (Mlp.settle c room s s).wire.rxReady = s.wire.rxReady ∧
      (Mlp.settle c room s s).txReady = ((Mlp.settle c room s s).wire.txValid && room) := by
  obtain ⟨r0, hcalm⟩ := I.calm
  obtain ⟨h1, h2, h3⟩ := settle_same (room' := room) hcalm
  refine ⟨?_, h3, ?_, h1.ready⟩
  · obtain ⟨a1, a2, a3, a4, a5, a6, a7, a8, a9, a10, a11, a12, a13, a14, a15, a16, a17, a18⟩ := I
    exact ⟨a1, ⟨room, h1⟩, by rw [h2]; exact a3, by rw [h2]; exact a4, by rw [h2]; exact a5, by rw [h2]; exact a6, by rw [h2]; exact a7,
      by rw [h2]; exact a8, a9, by rw [h2]; exact a10, by rw [h2]; exact a11, by rw [h2]; exact a12, by rw [h2]; exact a13,
      by rw [h2]; exact a14, by rw [h2]; exact a15, by rw [h2]; exact a16, by rw [h2]; exact a17, by rw [h2]; exact a18⟩
  · rw [← h1.wire, ← hcalm.wire]
    simp only [assign, h2, h3]

theorem cycle_user {c : Mvm} {s s' : Sig} {t : Cycle} (h : cycle c s t = .ok s') : s'.rxUser = t.user := by
  have hd : ∀ (room : Bool) (x : Sig × Sig), (delta c room x).2.rxUser = x.2.rxUser := by
    intro room x
    simp only [delta]
  have hs : ∀ (room : Bool) (p s : Sig), (settle c room p s).rxUser = s.rxUser := by
    intro room p s
    unfold settle
    rw [hd, hd, hd, hd]
  unfold cycle at h
  split at h
  · cases h
  · cases h
    have : ∀ (l : List Bool) (z : Sig), (l.foldl (fun z a => settle c a z z) z).rxUser = z.rxUser := by
      intro l
      induction l with
      | nil => intro z; rfl
      | cons a l ih => intro z; rw [List.foldl_cons, ih, hs]
    rw [this, hs]

end RadSim.Mlp
