import Verif.Model.InterRad
import Verif.Lemmas.Util
import Verif.Props.AxisPacket

/-! # Lemmas on the bridge between RADs -/

namespace RadSim.InterRad

open RadSim

/-- Beats a list of ports hands over to RAD `d`. -/
def arr (inp : Nat → PortIn) (ready : Nat → Bool) (d : Nat) (l : List Nat) : List Beat :=
  l.filterMap fun i =>
    if (inp i).tvalid && ready i && decide ((destRad (inp i).tdest).toNat = d)
    then some (current (inp i)) else none

/-- Every handshake of the cycle names an existing RAD. -/
def InRange (c : Config) (inp : Nat → PortIn) (ready : Nat → Bool) (l : List Nat) : Prop :=
  ∀ i ∈ l, (inp i).tvalid = true → ready i = true → (destRad (inp i).tdest).toNat < c.numRads

theorem destRad_current (p : PortIn) : destRad (current p).tdest = destRad p.tdest :=
  (C04_bridge_rewrites_dest p.tdest).1

theorem arr_cons (inp : Nat → PortIn) (ready : Nat → Bool) (d i : Nat) (l : List Nat) :
    arr inp ready d (i :: l) =
      (if (inp i).tvalid && ready i && decide ((destRad (inp i).tdest).toNat = d)
       then [current (inp i)] else []) ++ arr inp ready d l := by
  unfold arr
  rw [List.filterMap_cons]
  split <;> split at * <;> simp_all

theorem write_loop (c : Config) (inp : Nat → PortIn) :
    ∀ (l : List Nat) (s : State), InRange c inp s.ready l →
    ∃ s', l.foldlM (writePort c inp) s = some s' ∧
      s'.fifo = s.fifo ∧ s'.taken = s.taken ∧ s'.ready = s.ready ∧ s'.bw = s.bw ∧ s'.out = s.out ∧
      (∀ d, s'.pend d = s.pend d ++
        (arr inp s.ready d l).take (c.slots - (s.fifo d).length - (s.pend d).length)) ∧
      (∀ d, s'.cnt d = s.cnt d ++ List.replicate
        (min (c.slots - (s.fifo d).length - (s.pend d).length) (arr inp s.ready d l).length) 0) ∧
      (∀ i, s'.nextReady i = if i ∈ l then decide (s.bw < c.accept) else s.nextReady i) := by
  intro l
  induction l with
  | nil => intro s _; exact ⟨s, rfl, rfl, rfl, rfl, rfl, rfl, by simp [arr], by simp [arr], by simp⟩
  | cons i l ih =>
    intro s h
    have hl : InRange c inp s.ready l := fun j hj => h j (List.mem_cons_of_mem _ hj)
    rw [List.foldlM_cons]
    by_cases hv : ((inp i).tvalid && s.ready i) = true
    · have hv' := hv
      rw [Bool.and_eq_true] at hv
      have hd := h i (by simp) hv.1 hv.2
      by_cases hr : (s.fifo (destRad (inp i).tdest).toNat).length +
          (s.pend (destRad (inp i).tdest).toNat).length < c.slots
      · have e : writePort c inp s i = some { s with
            nextReady := upd s.nextReady i (decide (s.bw < c.accept)),
            pend := upd s.pend (destRad (inp i).tdest).toNat
              (s.pend (destRad (inp i).tdest).toNat ++ [current (inp i)]),
            cnt := upd s.cnt (destRad (inp i).tdest).toNat
              (s.cnt (destRad (inp i).tdest).toNat ++ [0]) } := by
          unfold writePort
          simp only [destRad_current, show (current (inp i)).tvalid = (inp i).tvalid from rfl]
          rw [if_pos hv', if_pos hd, if_pos hr]
        rw [e]
        obtain ⟨s', e1, e2, e3, e4, e5, e6, e7, e8, e9⟩ := ih { s with
            nextReady := upd s.nextReady i (decide (s.bw < c.accept)),
            pend := upd s.pend (destRad (inp i).tdest).toNat
              (s.pend (destRad (inp i).tdest).toNat ++ [current (inp i)]),
            cnt := upd s.cnt (destRad (inp i).tdest).toNat
              (s.cnt (destRad (inp i).tdest).toNat ++ [0]) } hl
        refine ⟨s', e1, e2, e3, e4, e5, e6, ?_, ?_, ?_⟩
        · intro d
          rw [e7 d, arr_cons]
          by_cases hdd : (destRad (inp i).tdest).toNat = d
          · subst hdd
            simp only [hv', decide_true, Bool.and_self, if_true, upd_apply, if_true,
              List.length_append, List.length_singleton, List.append_assoc]
            congr 1
            rw [show c.slots - (s.fifo (destRad (inp i).tdest).toNat).length -
              (s.pend (destRad (inp i).tdest).toNat).length =
              (c.slots - (s.fifo (destRad (inp i).tdest).toNat).length -
              ((s.pend (destRad (inp i).tdest).toNat).length + 1)) + 1 by omega]
            simp
          · simp [hdd, upd_apply, Ne.symm hdd]
        · intro d
          rw [e8 d, arr_cons]
          by_cases hdd : (destRad (inp i).tdest).toNat = d
          · subst hdd
            simp only [hv', decide_true, Bool.and_self, if_true, upd_apply, if_true,
              List.length_append, List.length_singleton, List.append_assoc]
            congr 1
            rw [← List.replicate_one, List.replicate_append_replicate]
            congr 1
            omega
          · simp [hdd, upd_apply, Ne.symm hdd]
        · intro j
          rw [e9 j]
          simp only [List.mem_cons, upd_apply]
          by_cases hj : j = i <;> simp [hj]
      · have e : writePort c inp s i = some { s with
            nextReady := upd s.nextReady i (decide (s.bw < c.accept)), drops := s.drops + 1 } := by
          unfold writePort
          simp only [destRad_current, show (current (inp i)).tvalid = (inp i).tvalid from rfl]
          rw [if_pos hv', if_pos hd, if_neg hr]
        rw [e]
        obtain ⟨s', e1, e2, e3, e4, e5, e6, e7, e8, e9⟩ := ih { s with
            nextReady := upd s.nextReady i (decide (s.bw < c.accept)), drops := s.drops + 1 } hl
        refine ⟨s', e1, e2, e3, e4, e5, e6, ?_, ?_, ?_⟩
        · intro d
          rw [e7 d, arr_cons]
          by_cases hdd : (destRad (inp i).tdest).toNat = d
          · subst hdd
            have : c.slots - (s.fifo (destRad (inp i).tdest).toNat).length -
              (s.pend (destRad (inp i).tdest).toNat).length = 0 := by omega
            simp [this]
          · simp [hdd]
        · intro d
          rw [e8 d, arr_cons]
          by_cases hdd : (destRad (inp i).tdest).toNat = d
          · subst hdd
            have : c.slots - (s.fifo (destRad (inp i).tdest).toNat).length -
              (s.pend (destRad (inp i).tdest).toNat).length = 0 := by omega
            simp [this]
          · simp [hdd]
        · intro j
          rw [e9 j]
          simp only [List.mem_cons, upd_apply]
          by_cases hj : j = i <;> simp [hj]
    · have e : writePort c inp s i = some { s with
          nextReady := upd s.nextReady i (decide (s.bw < c.accept)) } := by
        unfold writePort
        simp only [show (current (inp i)).tvalid = (inp i).tvalid from rfl]
        rw [if_neg hv]
      rw [e]
      obtain ⟨s', e1, e2, e3, e4, e5, e6, e7, e8, e9⟩ := ih { s with
          nextReady := upd s.nextReady i (decide (s.bw < c.accept)) } hl
      refine ⟨s', e1, e2, e3, e4, e5, e6, ?_, ?_, ?_⟩
      · intro d
        rw [e7 d, arr_cons]
        simp [hv]
      · intro d
        rw [e8 d, arr_cons]
        simp [hv]
      · intro j
        rw [e9 j]
        simp only [List.mem_cons, upd_apply]
        by_cases hj : j = i <;> simp [hj]

theorem writePort_ready (c : Config) (inp : Nat → PortIn) (s s' : State) (i : Nat)
    (h : writePort c inp s i = some s') : s'.ready = s.ready := by
  unfold writePort at h
  simp only at h
  split at h
  · split at h
    · split at h <;> (cases h; rfl)
    · cases h
  · cases h; rfl

/-- A handshake with a RAD number out of range is an out-of-range access. -/
theorem write_loop_none (c : Config) (inp : Nat → PortIn) :
    ∀ (l : List Nat) (s : State), ¬ InRange c inp s.ready l →
      l.foldlM (writePort c inp) s = none := by
  intro l
  induction l with
  | nil => intro s h; exact absurd (fun i hi => absurd hi (by simp)) h
  | cons i l ih =>
    intro s h
    rw [List.foldlM_cons]
    cases e : writePort c inp s i with
    | none => rfl
    | some s' =>
      have hr := writePort_ready c inp s s' i e
      refine ih s' ?_
      rw [hr]
      intro hl
      apply h
      intro j hj
      rcases List.mem_cons.mp hj with rfl | hj
      · intro h1 h2
        refine Decidable.byContradiction fun hd => ?_
        unfold writePort at e
        simp only [destRad_current, show (current (inp j)).tvalid = (inp j).tvalid from rfl] at e
        rw [if_pos (by simp [h1, h2]), if_neg hd] at e
        cases e
      · exact hl j hj

/-- What `readFifo` needs to find: matching counters, and beats filed under their own RAD. -/
structure ReadOk (s : State) (i : Nat) : Prop where
  taken : s.taken i = 0
  cnt : (s.fifo i).length ≤ (s.cnt i).length
  beats : ∀ b ∈ s.fifo i, b.tvalid = true ∧ (destRad b.tdest).toNat = i

/-- A beat leaves FIFO `i` in this cycle. -/
def pops (c : Config) (fifo : List Beat) (cnt : List Nat) : Bool :=
  !fifo.isEmpty && decide (c.latency ≤ cnt.headD 0 + 1)

theorem readPort_eq (c : Config) (s : State) (i : Nat) (hi : i < c.numRads) (h : ReadOk s i) :
    readPort c s i = some { s with
      cnt := upd s.cnt i (((s.cnt i).map (· + 1)).drop (if pops c (s.fifo i) (s.cnt i) then 1 else 0)),
      taken := upd s.taken i (if pops c (s.fifo i) (s.cnt i) then 1 else 0),
      out := upd s.out i (if pops c (s.fifo i) (s.cnt i) then ⟨true, (s.fifo i).headD default⟩
                          else { s.out i with tvalid := false }) } := by
  obtain ⟨h1, h2, h3⟩ := h
  have ht : upd s.taken i 0 = s.taken := by
    funext j; rw [upd_apply]; split
    · next hj => rw [hj, h1]
    · rfl
  unfold readPort
  simp only [h1, List.drop_zero]
  cases hf : s.fifo i with
  | nil =>
    simp [pops, ht]
  | cons b bs =>
    cases hc : s.cnt i with
    | nil => simp [hf, hc] at h2
    | cons t ts =>
      have hb := h3 b (by simp [hf])
      simp only [pops, List.isEmpty_cons, Bool.not_false, Bool.true_and, List.headD_cons,
        List.map_cons, upd_apply, if_true]
      by_cases hl : c.latency ≤ t + 1
      · simp [hl, hb.1, hb.2, hi]
        funext j; simp only [upd_apply]; split <;> rfl
      · simp [hl, ht]

theorem read_loop (c : Config) : ∀ (l : List Nat) (s : State), l.Nodup →
    (∀ i ∈ l, i < c.numRads ∧ ReadOk s i) →
    ∃ s', l.foldlM (readPort c) s = some s' ∧
      s'.fifo = s.fifo ∧ s'.pend = s.pend ∧ s'.bw = s.bw ∧ s'.ready = s.ready ∧
      s'.nextReady = s.nextReady ∧ s'.drops = s.drops ∧
      (∀ i, i ∉ l → s'.cnt i = s.cnt i ∧ s'.taken i = s.taken i ∧ s'.out i = s.out i) ∧
      (∀ i ∈ l, s'.cnt i = ((s.cnt i).map (· + 1)).drop (if pops c (s.fifo i) (s.cnt i) then 1 else 0) ∧
        s'.taken i = (if pops c (s.fifo i) (s.cnt i) then 1 else 0) ∧
        s'.out i = (if pops c (s.fifo i) (s.cnt i) then ⟨true, (s.fifo i).headD default⟩
                    else { s.out i with tvalid := false })) := by
  intro l
  induction l with
  | nil => intro s _ _; exact ⟨s, rfl, rfl, rfl, rfl, rfl, rfl, rfl, by simp, by simp⟩
  | cons i l ih =>
    intro s hn h
    rw [List.nodup_cons] at hn
    rw [List.foldlM_cons, readPort_eq c s i (h i (by simp)).1 (h i (by simp)).2]
    obtain ⟨s', e1, e2, e3, e4, e5, e6, e7, e8, e9⟩ := ih { s with
      cnt := upd s.cnt i (((s.cnt i).map (· + 1)).drop (if pops c (s.fifo i) (s.cnt i) then 1 else 0)),
      taken := upd s.taken i (if pops c (s.fifo i) (s.cnt i) then 1 else 0),
      out := upd s.out i (if pops c (s.fifo i) (s.cnt i) then ⟨true, (s.fifo i).headD default⟩
                          else { s.out i with tvalid := false }) } hn.2 (by
        intro j hj
        have hne : j ≠ i := fun e => hn.1 (e ▸ hj)
        obtain ⟨a, b⟩ := h j (by simp [hj])
        exact ⟨a, by simp [upd_ne _ _ hne, b.taken], by simp [upd_ne _ _ hne, b.cnt], b.beats⟩)
    refine ⟨s', e1, e2, e3, e4, e5, e6, e7, ?_, ?_⟩
    · intro j hj
      simp only [List.mem_cons, not_or] at hj
      have := e8 j hj.2
      simpa [upd_ne _ _ hj.1] using this
    · intro j hj
      rcases List.mem_cons.mp hj with rfl | hj
      · have := e8 j hn.1
        simpa [upd_apply] using this
      · have hne : j ≠ i := fun e => hn.1 (e ▸ hj)
        have := e9 j hj
        simpa [upd_ne _ _ hne] using this

/-- State between two edges. -/
structure Inv (c : Config) (s : State) : Prop where
  cnt : ∀ i, i < c.numRads → (s.cnt i).length = (s.fifo i).length
  beats : ∀ i, i < c.numRads → ∀ b ∈ s.fifo i, b.tvalid = true ∧ (destRad b.tdest).toNat = i
  room : ∀ i, i < c.numRads → (s.fifo i).length ≤ c.slots

theorem inv_init (c : Config) : Inv c init :=
  ⟨fun _ _ => rfl, (fun _ _ b hb => by simp [init] at hb), fun _ _ => Nat.zero_le _⟩

/-- Beats handed over to RAD `d` that find room. -/
def kept (c : Config) (s : State) (inp : Nat → PortIn) (d : Nat) : List Beat :=
  (arr inp s.ready d (List.range c.numRads)).take (c.slots - (s.fifo d).length)

theorem arr_mem {inp : Nat → PortIn} {ready : Nat → Bool} {d : Nat} {l : List Nat} {b : Beat}
    (h : b ∈ arr inp ready d l) : b.tvalid = true ∧ (destRad b.tdest).toNat = d := by
  unfold arr at h
  rw [List.mem_filterMap] at h
  obtain ⟨i, _, hi⟩ := h
  split at hi
  · next hc =>
    cases hi
    simp only [Bool.and_eq_true, decide_eq_true_eq] at hc
    exact ⟨hc.1.1, by rw [destRad_current]; exact hc.2⟩
  · cases hi

/-- Effect of one clock edge, in either process order. -/
theorem step_spec (c : Config) (wf : Bool) (inp : Nat → PortIn) (s : State) (hi : Inv c s)
    (hr : InRange c inp s.ready (List.range c.numRads)) :
    ∃ s', step c wf inp s = some s' ∧
      s'.bw = (if s.bw ≥ c.total - 1 then 0 else s.bw + 1) ∧
      (∀ i, i < c.numRads → s'.ready i = decide (s.bw < c.accept)) ∧
      (∀ i, i < c.numRads →
        s'.fifo i = (s.fifo i).drop (if pops c (s.fifo i) (s.cnt i) then 1 else 0) ++ kept c s inp i ∧
        s'.cnt i = ((s.cnt i).map (· + 1)).drop (if pops c (s.fifo i) (s.cnt i) then 1 else 0) ++
          List.replicate (kept c s inp i).length (if wf then 1 else 0) ∧
        s'.out i = (if pops c (s.fifo i) (s.cnt i) then ⟨true, (s.fifo i).headD default⟩
                    else { s.out i with tvalid := false })) := by
  have hrng : ∀ i, i < c.numRads → i ∈ List.range c.numRads := fun i h => List.mem_range.mpr h
  unfold step
  cases wf with
  | true =>
    simp only [if_true]
    obtain ⟨s1, e1, e2, e3, e4, e5, e6, e7, e8, e9⟩ := write_loop c inp (List.range c.numRads)
      { s with pend := fun _ => [], taken := fun _ => 0, nextReady := s.ready } hr
    have ew : writeFifo c inp { s with pend := fun _ => [], taken := fun _ => 0, nextReady := s.ready }
        = some { s1 with bw := if s1.bw ≥ c.total - 1 then 0 else s1.bw + 1 } := by
      unfold writeFifo; rw [e1]
    simp only [List.nil_append, List.length_nil, Nat.sub_zero] at e2 e3 e4 e5 e6 e7 e8 e9
    have hk : ∀ d, (kept c s inp d).length =
        min (c.slots - (s.fifo d).length) (arr inp s.ready d (List.range c.numRads)).length := by
      intro d; rw [kept, List.length_take]
    obtain ⟨s2, f1, f2, f3, f4, f5, f6, f7, f8, f9⟩ := read_loop c (List.range c.numRads)
      { s1 with bw := if s1.bw ≥ c.total - 1 then 0 else s1.bw + 1 } List.nodup_range (by
        intro i him
        have hlt := List.mem_range.mp him
        refine ⟨hlt, ⟨by simp [e3], ?_, ?_⟩⟩
        · simp only [e2, e8 i, List.length_append, List.length_replicate]
          have := hi.cnt i hlt
          omega
        · simp only [e2]; exact hi.beats i hlt)
    rw [ew]
    refine ⟨_, by rw [Option.bind_some]; unfold readFifo; rw [f1]; rfl, ?_, ?_, ?_⟩
    · simp only [f4, e5]
    · intro i hlt
      simp only [f6, e9 i, if_pos (hrng i hlt)]
    · intro i hlt
      obtain ⟨g1, g2, g3⟩ := f9 i (hrng i hlt)
      have hp : pops c (s1.fifo i) (s1.cnt i) = pops c (s.fifo i) (s.cnt i) := by
        rw [e2, e8 i]
        unfold pops
        cases hf : s.fifo i with
        | nil => rfl
        | cons b bs =>
          have := hi.cnt i hlt
          rw [hf] at this
          cases hc : s.cnt i with
          | nil => rw [hc] at this; simp at this
          | cons t ts => rfl
      simp only [hp] at g1 g2 g3
      refine ⟨?_, ?_, ?_⟩
      · simp only [f2, f3, g2, e2, e7 i]
        rfl
      · simp only [g1, e8 i, List.map_append, List.map_replicate]
        rw [hk]
        by_cases hpp : pops c (s.fifo i) (s.cnt i) = true
        · have hne : (s.cnt i) ≠ [] := by
            intro h0
            have := hi.cnt i hlt
            rw [h0] at this
            simp only [pops, Bool.and_eq_true, Bool.not_eq_true', List.isEmpty_eq_false_iff] at hpp
            apply hpp.1
            exact List.length_eq_zero_iff.mp this.symm
          rw [if_pos hpp, List.drop_append_of_le_length]
          · rw [List.length_map]; exact List.length_pos_iff.mpr hne
        · rw [if_neg hpp]; rfl
      · simp only [g3, e2, e6]
  | false =>
    simp only [Bool.false_eq_true, if_false]
    obtain ⟨s1, f1, f2, f3, f4, f5, f6, f7, f8, f9⟩ := read_loop c (List.range c.numRads)
      { s with pend := fun _ => [], taken := fun _ => 0, nextReady := s.ready } List.nodup_range (by
        intro i him
        have hlt := List.mem_range.mp him
        exact ⟨hlt, ⟨rfl, by simp [hi.cnt i hlt], hi.beats i hlt⟩⟩)
    simp only at f2 f3 f4 f5 f6 f7 f8 f9
    obtain ⟨s2, e1, e2, e3, e4, e5, e6, e7, e8, e9⟩ := write_loop c inp (List.range c.numRads) s1
      (by rw [f5]; exact hr)
    have ew : writeFifo c inp s1 = some { s2 with bw := if s2.bw ≥ c.total - 1 then 0 else s2.bw + 1 } := by
      unfold writeFifo; rw [e1]
    have hk : ∀ d, (kept c s inp d).length =
        min (c.slots - (s.fifo d).length) (arr inp s.ready d (List.range c.numRads)).length := by
      intro d; rw [kept, List.length_take]
    have er : readFifo c { s with pend := fun _ => [], taken := fun _ => 0, nextReady := s.ready }
        = some s1 := f1
    rw [er, Option.bind_some, ew]
    refine ⟨_, rfl, ?_, ?_, ?_⟩
    · simp only [e5, f4]
    · intro i hlt
      simp only [e9 i, if_pos (hrng i hlt), f4]
    · intro i hlt
      obtain ⟨g1, g2, g3⟩ := f9 i (hrng i hlt)
      refine ⟨?_, ?_, ?_⟩
      · simp only [e2, f2, e3, g2, e7 i, f3, f5, List.nil_append, List.length_nil, Nat.sub_zero]
        rfl
      · simp only [e8 i, g1, f2, f3, f5, List.length_nil, Nat.sub_zero]
        rw [hk]
      · simp only [e6, g3]

theorem step_none (c : Config) (wf : Bool) (inp : Nat → PortIn) (s : State) (hi : Inv c s)
    (hr : ¬ InRange c inp s.ready (List.range c.numRads)) : step c wf inp s = none := by
  unfold step
  cases wf with
  | true =>
    simp only [if_true]
    have : writeFifo c inp { s with pend := fun _ => [], taken := fun _ => 0, nextReady := s.ready }
        = none := by
      unfold writeFifo
      rw [write_loop_none c inp _ { s with pend := fun _ => [], taken := fun _ => 0, nextReady := s.ready } hr]
    rw [this]; rfl
  | false =>
    simp only [Bool.false_eq_true, if_false]
    obtain ⟨s1, f1, f2, f3, f4, f5, f6, f7, f8, f9⟩ := read_loop c (List.range c.numRads)
      { s with pend := fun _ => [], taken := fun _ => 0, nextReady := s.ready } List.nodup_range (by
        intro i him
        have hlt := List.mem_range.mp him
        exact ⟨hlt, ⟨rfl, by simp [hi.cnt i hlt], hi.beats i hlt⟩⟩)
    have er : readFifo c { s with pend := fun _ => [], taken := fun _ => 0, nextReady := s.ready }
        = some s1 := f1
    rw [er, Option.bind_some]
    have : writeFifo c inp s1 = none := by
      unfold writeFifo
      rw [write_loop_none c inp _ _ (by rw [f5]; exact hr)]
    rw [this]; rfl

theorem inv_step (c : Config) (wf : Bool) (inp : Nat → PortIn) (s s' : State) (hi : Inv c s)
    (h : step c wf inp s = some s') : Inv c s' := by
  by_cases hr : InRange c inp s.ready (List.range c.numRads)
  · obtain ⟨t, e, -, -, h3⟩ := step_spec c wf inp s hi hr
    rw [e] at h
    cases h
    refine ⟨?_, ?_, ?_⟩
    · intro i hlt
      obtain ⟨a, b, -⟩ := h3 i hlt
      rw [a, b]
      simp only [List.length_append, List.length_drop, List.length_map, List.length_replicate,
        hi.cnt i hlt]
    · intro i hlt b hb
      obtain ⟨a, -, -⟩ := h3 i hlt
      rw [a] at hb
      rcases List.mem_append.mp hb with hb | hb
      · exact hi.beats i hlt b (List.mem_of_mem_drop hb)
      · exact arr_mem (List.mem_of_mem_take hb)
    · intro i hlt
      obtain ⟨a, -, -⟩ := h3 i hlt
      have := hi.room i hlt
      rw [a]
      simp only [List.length_append, List.length_drop, kept, List.length_take]
      omega
  · rw [step_none c wf inp s hi hr] at h
    cases h

end RadSim.InterRad
