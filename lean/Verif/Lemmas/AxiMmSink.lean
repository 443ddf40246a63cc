import Verif.Model.AxiMmSink
import Verif.Spec.Cut
import Verif.Spec.Packets

/-! # Lemmas on the sink side of the AXI memory-mapped adapters -/

namespace RadSim.MmSink

@[simp] theorem put_same {α : Type} (f : MmType → α) (k : MmType) (x : α) : put f k x k = x := by simp [put]

theorem put_ne {α : Type} (f : MmType → α) {k j : MmType} (x : α) (h : j ≠ k) : put f k x j = f j := by
  simp [put, h]

/-! ## cutting at tails -/

/-- Exactly one packet: the last flit, and no other, is a tail. -/
def Closed {α : Type} (tail : α → Bool) (p : List α) : Prop :=
  ∃ ini last, p = ini ++ [last] ∧ tail last = true ∧ ∀ f ∈ ini, tail f = false

theorem fold_open {α : Type} (tail : α → Bool) (a l : List α) (ha : ∀ f ∈ a, tail f = false) (c : List (List α) × List α) :
    (a ++ l).foldl (fun c x => if tail x then (c.1 ++ [c.2 ++ [x]], []) else (c.1, c.2 ++ [x])) c =
      l.foldl (fun c x => if tail x then (c.1 ++ [c.2 ++ [x]], []) else (c.1, c.2 ++ [x])) (c.1, c.2 ++ a) := by
  induction a generalizing c with
  | nil => simp
  | cons x a ih =>
    rw [List.cons_append, List.foldl_cons, if_neg (by simp [ha x (by simp)]), ih (fun f hf => ha f (by simp [hf]))]
    simp

theorem fold_closed {α : Type} (tail : α → Bool) (ps : List (List α)) (l : List α) (hp : ∀ p ∈ ps, Closed tail p)
    (hl : ∀ f ∈ l, tail f = false) (c : List (List α)) :
    (ps.flatten ++ l).foldl (fun c x => if tail x then (c.1 ++ [c.2 ++ [x]], []) else (c.1, c.2 ++ [x])) (c, []) =
      (c ++ ps, l) := by
  induction ps generalizing c with
  | nil =>
    have := fold_open tail l [] hl (c, [])
    simpa using this
  | cons p ps ih =>
    obtain ⟨ini, last, rfl, h1, h2⟩ := hp p (by simp)
    rw [List.flatten_cons, List.append_assoc, List.append_assoc, fold_open tail ini _ h2,
      List.singleton_append, List.foldl_cons, if_pos h1, ih (fun q hq => hp q (by simp [hq]))]
    simp

/-- Cutting a sequence of packets and an open rest. -/
theorem whole_closed {α : Type} (tail : α → Bool) (ps : List (List α)) (l : List α) (hp : ∀ p ∈ ps, Closed tail p)
    (hl : ∀ f ∈ l, tail f = false) : whole tail (ps.flatten ++ l) = ps := by
  unfold whole cut
  rw [fold_closed tail ps l hp hl]
  simp

theorem fold_first {α : Type} (tail : α → Bool) (l : List α) (c d : List (List α)) (r : List α) :
    (l.foldl (fun c x => if tail x then (c.1 ++ [c.2 ++ [x]], []) else (c.1, c.2 ++ [x])) (c ++ d, r)) =
      (c ++ (l.foldl (fun c x => if tail x then (c.1 ++ [c.2 ++ [x]], []) else (c.1, c.2 ++ [x])) (d, r)).1,
        (l.foldl (fun c x => if tail x then (c.1 ++ [c.2 ++ [x]], []) else (c.1, c.2 ++ [x])) (d, r)).2) := by
  induction l generalizing d r with
  | nil => simp
  | cons x l ih =>
    simp only [List.foldl_cons]
    split
    · rw [List.append_assoc, ih]
    · rw [ih]

/-- Packets in front of a sequence come out first. -/
theorem whole_flatten_append {α : Type} (tail : α → Bool) (ps : List (List α)) (l : List α)
    (hp : ∀ p ∈ ps, Closed tail p) : whole tail (ps.flatten ++ l) = ps ++ whole tail l := by
  unfold whole cut
  rw [List.foldl_append]
  have h := fold_closed tail ps [] hp (by simp) []
  rw [List.append_nil] at h
  rw [h, List.nil_append]
  have := fold_first tail l ps [] []
  rw [List.append_nil] at this
  rw [this]

theorem fold_map {α β : Type} (tail : α → Bool) (g : β → α) (l : List β) (c : List (List β)) (r : List β) :
    ((l.map g).foldl (fun c x => if tail x then (c.1 ++ [c.2 ++ [x]], []) else (c.1, c.2 ++ [x]))
        (c.map (List.map g), r.map g)) =
      (((l.foldl (fun c x => if tail (g x) then (c.1 ++ [c.2 ++ [x]], []) else (c.1, c.2 ++ [x])) (c, r)).1.map
          (List.map g)),
        (l.foldl (fun c x => if tail (g x) then (c.1 ++ [c.2 ++ [x]], []) else (c.1, c.2 ++ [x])) (c, r)).2.map g) := by
  induction l generalizing c r with
  | nil => simp
  | cons x l ih =>
    simp only [List.map_cons, List.foldl_cons]
    split
    · have := ih (c ++ [r ++ [x]]) []
      simp only [List.map_append, List.map_cons, List.map_nil] at this
      rw [this]
    · have := ih c (r ++ [x])
      simp only [List.map_append, List.map_cons, List.map_nil] at this
      rw [this]

theorem whole_map {α β : Type} (tail : α → Bool) (g : β → α) (l : List β) :
    whole tail (l.map g) = (whole (fun x => tail (g x)) l).map (List.map g) := by
  have := fold_map tail g l [] []
  simp only [List.map_nil] at this
  unfold whole cut
  rw [this]

/-- The flits of every packet are flits of the sequence. -/
theorem fold_mem {α : Type} (tail : α → Bool) (l : List α) (c : List (List α)) (r : List α) (P : α → Prop)
    (hc : ∀ p ∈ c, ∀ f ∈ p, P f) (hr : ∀ f ∈ r, P f) (hl : ∀ f ∈ l, P f) :
    ∀ p ∈ (l.foldl (fun c x => if tail x then (c.1 ++ [c.2 ++ [x]], []) else (c.1, c.2 ++ [x])) (c, r)).1,
      p ∈ c ∨ (p ≠ [] ∧ ∀ f ∈ p, P f) := by
  induction l generalizing c r with
  | nil => intro p hp; exact .inl hp
  | cons x l ih =>
    intro p hp
    simp only [List.foldl_cons] at hp
    have hr' : ∀ f ∈ r ++ [x], P f := by
      intro f hf
      rcases List.mem_append.1 hf with h | h
      · exact hr f h
      · exact hl f (by simp [List.mem_singleton.1 h])
    split at hp
    · rcases ih _ _ (by
        intro q hq f hf
        rcases List.mem_append.1 hq with h | h
        · exact hc q h f hf
        · exact hr' f (List.mem_singleton.1 h ▸ hf)) (by simp) (fun f hf => hl f (by simp [hf])) p hp with h | h
      · rcases List.mem_append.1 h with h | h
        · exact .inl h
        · exact .inr ⟨List.mem_singleton.1 h ▸ by simp, fun f hf => hr' f (List.mem_singleton.1 h ▸ hf)⟩
      · exact .inr h
    · exact ih _ _ hc hr' (fun f hf => hl f (by simp [hf])) p hp

theorem whole_mem {α : Type} (tail : α → Bool) (l : List α) (P : α → Prop) (hl : ∀ f ∈ l, P f) :
    ∀ p ∈ whole tail l, p ≠ [] ∧ ∀ f ∈ p, P f := by
  intro p hp
  rcases fold_mem tail l [] [] P (by simp) (by simp) hl p hp with h | h
  · simp at h
  · exact h

/-! ## the invariant -/

/-- The flits of a class among those read from the router. -/
def ofClass (c : Cfg) (k : MmType) (l : List BsFlit) : List ScFlit :=
  (l.filter fun b => c.classOf b.vc = some k).map mmEject

theorem ofClass_append (c : Cfg) (k : MmType) (a b : List BsFlit) :
    ofClass c k (a ++ b) = ofClass c k a ++ ofClass c k b := by simp [ofClass]

/-- The packets of a class. -/
def madeOf (k : MmType) (made : List (MmType × List ScFlit)) : List (List ScFlit) :=
  (made.filter fun x => x.1 = k).map (·.2)

theorem madeOf_append (k : MmType) (a b : List (MmType × List ScFlit)) :
    madeOf k (a ++ b) = madeOf k a ++ madeOf k b := by simp [madeOf]

/-- The flits of a class inside the adapter, up to reassembly. -/
def inside (c : Cfg) (s : State) (k : MmType) : List ScFlit :=
  (if s.prio.head? = some k then s.pkt else []) ++ s.fifos k ++ ofClass c k s.held.toList

theorem classOf_mem {c : Cfg} {v : Nat} {k : MmType} (h : c.classOf v = some k) : k ∈ c.types := by
  unfold Cfg.classOf at h
  unfold Cfg.types
  split at h
  · rename_i hm
    rw [if_pos hm]
    unfold inverseReq at h
    repeat' split at h
    all_goals first
      | (cases h; simp)
      | cases h
  · rename_i hm
    rw [if_neg hm]
    unfold inverseRsp at h
    repeat' split at h
    all_goals first
      | (cases h; simp)
      | cases h

/-- Ejection and reassembly. -/
structure FInv (c : Cfg) (s : State) (acc : List BsFlit) (made : List (MmType × List ScFlit)) : Prop where
  prio : s.prio.Perm c.types
  stream : ∀ k ∈ c.types, ofClass c k acc = (madeOf k made).flatten ++ inside c s k
  closed : ∀ x ∈ made, Closed (·.tail) x.2 ∧ x.1 ∈ c.types
  idle : s.depack = false → s.pkt = []
  busy : s.depack = true → ∃ k ks, s.prio = k :: ks ∧ s.pop k < s.push k
  open_ : ∀ f ∈ s.pkt, f.tail = false
  cnt : ∀ k, s.pushNext k = s.pop k + (s.fifos k).countP fun f => f.tail
  le : ∀ k, s.push k ≤ s.pushNext k
  fifoLen : ∀ k, (s.fifos k).length ≤ c.depth
  outLen : s.outq.length ≤ 2
  heldVc : ∀ f, s.held = some f → (c.classOf f.vc).isSome

/-- The packets that were shown, are waiting at the port and in the output FIFO. -/
structure PInv (c : Cfg) (s : State) (shown : List Beat) (made : List (MmType × List ScFlit)) (pres : List (List ScFlit)) :
    Prop where
  order : made.map (·.2) = pres ++ s.cur.toList ++ s.outq
  beats : pres.map (beatOf c.master) = (shown ++ s.port.toList).map some

theorem FInv.init (c : Cfg) : FInv c (State.init c) [] [] := by
  constructor <;> simp [State.init, ofClass, madeOf, inside]
  intro k _
  exact ite_self _

theorem PInv.init (c : Cfg) : PInv c (State.init c) [] [] [] := by
  constructor <;> simp [State.init]

theorem FInv.commit {c : Cfg} {s : State} {acc : List BsFlit} {made : List (MmType × List ScFlit)}
    (hi : FInv c s acc made) : FInv c { s with push := s.pushNext } acc made := by
  refine ⟨hi.prio, hi.stream, hi.closed, hi.idle, fun h => ?_, hi.open_, hi.cnt, fun _ => Nat.le_refl _, hi.fifoLen,
    hi.outLen, hi.heldVc⟩
  obtain ⟨v, vs, h1, h2⟩ := hi.busy h
  exact ⟨v, vs, h1, Nat.lt_of_lt_of_le h2 (hi.le v)⟩

/-! ## ejection -/

/-- What the ejection process has in hand. -/
def inHand (s : State) (arrive : Option BsFlit) : Option BsFlit :=
  match s.held with
  | some f => some f
  | none => arrive

theorem ejectStep_eq (c : Cfg) (s : State) (arrive : Option BsFlit) : ejectStep c s arrive =
    match inHand s arrive with
    | none => .ok { s with push := s.pushNext, held := none }
    | some f =>
      match c.classOf f.vc with
      | none => .error .badVc
      | some k =>
        if (s.fifos k).length < c.depth then
          .ok { s with
            push := s.pushNext
            held := none
            fifos := put s.fifos k (s.fifos k ++ [mmEject f])
            pushNext := if f.tail then put s.pushNext k (s.pushNext k + 1) else s.pushNext }
        else .ok { s with push := s.pushNext, held := some f } := by rfl

theorem ejectStep_inv {c : Cfg} {s : State} {acc : List BsFlit} {made : List (MmType × List ScFlit)}
    (hi : FInv c s acc made) (arrive : Option BsFlit) (ha : ∀ f, s.held = none → arrive = some f → (c.classOf f.vc).isSome) :
    ∃ s', ejectStep c s arrive = .ok s' ∧
      FInv c s' (acc ++ (match s.held with | none => arrive.toList | some _ => [])) made ∧
      s'.outq = s.outq ∧ s'.cur = s.cur ∧ s'.port = s.port ∧ s'.credit = s.credit := by
  have hic := hi.commit
  rw [ejectStep_eq]
  -- what is read and what was held make up what is in hand
  have hstream : ∀ k, ofClass c k s.held.toList ++
      ofClass c k (match s.held with | none => arrive.toList | some _ => []) =
      ofClass c k (inHand s arrive).toList := by
    intro k
    cases h : s.held <;> simp [inHand, h, ofClass]
  have hok : ∀ f, inHand s arrive = some f → (c.classOf f.vc).isSome := by
    intro f hf
    cases h : s.held with
    | none => exact ha f h (by simpa [inHand, h] using hf)
    | some g =>
      have : g = f := by simpa [inHand, h] using hf
      exact this ▸ hi.heldVc g h
  cases hh : inHand s arrive with
  | none =>
    refine ⟨_, rfl, ⟨hi.prio, ?_, hi.closed, hi.idle, hic.busy, hi.open_, hi.cnt, hic.le, hi.fifoLen, hi.outLen, by simp⟩,
      rfl, rfl, rfl, rfl⟩
    intro k hk
    have := hstream k
    rw [hh] at this
    rw [ofClass_append, hi.stream k hk]
    simp only [inside, List.append_assoc, this]
  | some f =>
    obtain ⟨k, hk⟩ := Option.isSome_iff_exists.1 (hok f hh)
    simp only [hk]
    split
    · rename_i hroom
      refine ⟨_, rfl, ⟨hi.prio, ?_, hi.closed, hi.idle, hic.busy, hi.open_, ?_, ?_, ?_, hi.outLen, by simp⟩, rfl, rfl, rfl,
        rfl⟩
      · intro j hj
        have := hstream j
        rw [hh] at this
        rw [ofClass_append, hi.stream j hj]
        simp only [inside, List.append_assoc, this]
        by_cases hjk : j = k
        · subst hjk
          simp [ofClass, hk]
        · have : ¬ (k = j) := fun h => hjk h.symm
          simp [ofClass, hk, put_ne _ _ hjk, this]
      · intro j
        have := hi.cnt j
        by_cases hjk : j = k
        · subst hjk
          cases ht : f.tail <;> simp [List.countP_append, mmEject, ht] <;> omega
        · cases ht : f.tail <;> simp [put_ne _ _ hjk, this]
      · intro j
        cases ht : f.tail
        · simp
        · by_cases hjk : j = k
          · subst hjk; simp
          · simp [put_ne _ _ hjk]
      · intro j
        by_cases hjk : j = k
        · subst hjk; simp; omega
        · simp only [put_ne _ _ hjk]; exact hi.fifoLen j
    · refine ⟨_, rfl, ⟨hi.prio, ?_, hi.closed, hi.idle, hic.busy, hi.open_, hi.cnt, hic.le, hi.fifoLen, hi.outLen, ?_⟩,
        rfl, rfl, rfl, rfl⟩
      · intro j hj
        have := hstream j
        rw [hh] at this
        rw [ofClass_append, hi.stream j hj]
        simp only [inside, List.append_assoc, this]
      · intro g hg
        cases hg
        simp [hk]

/-! ## reassembly -/

theorem rot_perm (l : List MmType) : (rot l).Perm l := by
  cases l with
  | nil => exact List.Perm.refl _
  | cons x l => simp [rot]

theorem search_perm (s : State) (n : Nat) (l : List MmType) : (search s n l).Perm l := by
  induction n generalizing l with
  | zero => exact List.Perm.refl _
  | succ n ih =>
    unfold search
    split
    · exact List.Perm.refl _
    · exact (ih _).trans (rot_perm l)

/-- A change of the priorities while nothing is being reassembled. -/
theorem FInv.reprio {c : Cfg} {s : State} {acc : List BsFlit} {made : List (MmType × List ScFlit)}
    (hi : FInv c s acc made) (hd : s.depack = false) (prio : List MmType) (hp : prio.Perm s.prio) :
    FInv c { s with prio } acc made := by
  refine ⟨hp.trans hi.prio, fun k hk => ?_, hi.closed, hi.idle, fun h => absurd h (by simp [hd]), hi.open_, hi.cnt, hi.le,
    hi.fifoLen, hi.outLen, hi.heldVc⟩
  rw [hi.stream k hk]
  simp [inside, hi.idle hd]

theorem popPhase_inv {c : Cfg} {s : State} {acc : List BsFlit} {made : List (MmType × List ScFlit)}
    (hi : FInv c s acc made) : ∃ s' v made', popPhase s = .ok (s', v) ∧ FInv c s' acc (made ++ made') ∧
      s'.outq = s.outq ++ made'.map (·.2) ∧ s'.cur = s.cur ∧ s'.port = s.port ∧
      (s'.credit = match s.credit with | some w => some w | none => v.head?) := by
  have hne : s.prio ≠ [] := by
    intro h
    have := hi.prio.length_eq
    rw [h] at this
    simp [Cfg.types] at this
    split at this <;> simp at this
  unfold popPhase
  cases hp : s.prio with
  | nil => exact absurd hp hne
  | cons k ks =>
    dsimp only
    have hk : k ∈ c.types := hi.prio.subset (by simp [hp])
    have hi' : FInv c { s with prio := k :: ks } acc made := by rw [← hp]; exact hi
    by_cases hlt : s.pop k < s.push k
    · rw [if_pos hlt]
      by_cases hout : s.outq.length < 2
      · rw [if_pos hout]
        have hcnt := hi.cnt k
        have hle := hi.le k
        cases hf : s.fifos k with
        | nil =>
          rw [hf] at hcnt
          simp at hcnt
          omega
        | cons f rest =>
          dsimp only
          rw [hf, List.countP_cons] at hcnt
          have hpk : (if s.prio.head? = some k then s.pkt else []) = s.pkt := by simp [hp]
          have hpo : ∀ j, j ≠ k → (if s.prio.head? = some j then s.pkt else []) = [] := by
            intro j hj
            rw [if_neg]
            simp [hp, Ne.symm hj]
          have hlen : ∀ j, (put s.fifos k rest j).length ≤ c.depth := by
            intro j
            by_cases hjk : j = k
            · subst hjk
              have := hi.fifoLen j
              rw [hf, List.length_cons] at this
              simp only [put_same]
              omega
            · rw [put_ne _ _ hjk]; exact hi.fifoLen j
          cases ht : f.tail with
          | true =>
            rw [ht, if_pos rfl] at hcnt
            rw [if_pos rfl, if_pos (by omega)]
            refine ⟨_, _, [(k, s.pkt ++ [f])], rfl, ?_, by simp, rfl, rfl, by cases s.credit <;> simp⟩
            refine ⟨?_, ?_, ?_, by simp, by simp, by simp, ?_, hi.le, hlen, ?_, hi.heldVc⟩
            · have : (ks ++ [k]).Perm (k :: ks) := by simp
              exact this.trans (hp ▸ hi.prio)
            · intro j hj
              rw [hi.stream j hj, madeOf_append, List.flatten_append]
              by_cases hjk : j = k
              · subst hjk
                simp [inside, hpk, hf, madeOf]
              · have h1 : ¬ (k = j) := fun e => hjk e.symm
                simp [inside, hpo j hjk, madeOf, h1, put_ne _ _ hjk]
            · intro x hx
              rcases List.mem_append.1 hx with h | h
              · exact hi.closed x h
              · rw [List.mem_singleton.1 h]
                exact ⟨⟨s.pkt, f, rfl, ht, hi.open_⟩, hk⟩
            · intro j
              by_cases hjk : j = k
              · subst hjk
                simp only [put_same]
                omega
              · simp only [put_ne _ _ hjk]; exact hi.cnt j
            · simp only [List.length_append, List.length_cons, List.length_nil]
              omega
          | false =>
            rw [ht, if_neg (by simp)] at hcnt
            rw [if_neg (by simp)]
            refine ⟨_, _, [], rfl, ?_, by simp, rfl, rfl, by cases s.credit <;> simp⟩
            rw [List.append_nil]
            refine ⟨hp ▸ hi.prio, ?_, hi.closed, by simp, fun _ => ⟨k, ks, rfl, hlt⟩, ?_, ?_, hi.le, hlen, hi.outLen, hi.heldVc⟩
            · intro j hj
              rw [hi.stream j hj]
              by_cases hjk : j = k
              · subst hjk
                simp [inside, hp, hf]
              · have h1 : ¬ (k = j) := fun e => hjk e.symm
                simp [inside, hp, h1, put_ne _ _ hjk]
            · intro g hg
              rcases List.mem_append.1 hg with h | h
              · exact hi.open_ g h
              · rw [List.mem_singleton.1 h]; exact ht
            · intro j
              by_cases hjk : j = k
              · subst hjk
                simp only [put_same]
                omega
              · simp only [put_ne _ _ hjk]; exact hi.cnt j
      · rw [if_neg hout]
        refine ⟨_, [], [], rfl, ?_, by simp, rfl, rfl, by cases s.credit <;> simp⟩
        rw [List.append_nil]
        exact ⟨hi'.prio, hi'.stream, hi.closed, by simp, fun _ => ⟨k, ks, rfl, hlt⟩, hi.open_, hi.cnt, hi.le, hi.fifoLen,
          hi.outLen, hi.heldVc⟩
    · rw [if_neg hlt]
      refine ⟨_, [], [], rfl, ?_, by simp, rfl, rfl, by cases s.credit <;> simp⟩
      rw [List.append_nil]
      exact hi

theorem depackStep_inv {c : Cfg} {s : State} {acc : List BsFlit} {made : List (MmType × List ScFlit)}
    (hi : FInv c s acc made) (commit : Bool) :
    ∃ s' v made', depackStep c s commit = .ok (s', v) ∧ FInv c s' acc (made ++ made') ∧
      s'.outq = s.outq ++ made'.map (·.2) ∧ s'.cur = s.cur ∧ s'.port = s.port := by
  have key : ∀ t : State, FInv c t acc made → ∃ s' v made',
      (if t.depack then popPhase t else popPhase { t with prio := search t c.types.length t.prio }) = .ok (s', v) ∧
      FInv c s' acc (made ++ made') ∧ s'.outq = t.outq ++ made'.map (·.2) ∧ s'.cur = t.cur ∧ s'.port = t.port := by
    intro t ht
    by_cases hd : t.depack = true
    · rw [if_pos hd]
      obtain ⟨s', v, made', h1, h2, h3, h4, h5, -⟩ := popPhase_inv ht
      exact ⟨s', v, made', h1, h2, h3, h4, h5⟩
    · rw [if_neg hd]
      obtain ⟨s', v, made', h1, h2, h3, h4, h5, -⟩ := popPhase_inv (ht.reprio (Bool.eq_false_iff.2 hd) _ (search_perm t _ t.prio))
      exact ⟨s', v, made', h1, h2, h3, h4, h5⟩
  cases commit with
  | false => exact key s hi
  | true => exact key _ hi.commit

/-! ## the port -/

/-- The packet `OutputInterface` has in hand, and the rest of the FIFO. -/
def taken (s : State) : Option (List ScFlit) × List (List ScFlit) :=
  match s.cur, s.outq with
  | none, p :: q => (some p, q)
  | x, q => (x, q)

theorem taken_eq (s : State) : (taken s).1.toList ++ (taken s).2 = s.cur.toList ++ s.outq := by
  unfold taken
  cases h1 : s.cur <;> cases h2 : s.outq <;> simp

theorem taken_len (s : State) : (taken s).2.length ≤ s.outq.length := by
  unfold taken
  cases h1 : s.cur <;> cases h2 : s.outq <;> simp

theorem outStep_eq (c : Cfg) (s : State) (ready : MmType → Bool) : outStep c s ready =
    match taken s with
    | (none, q) => .ok { s with outq := q, cur := none, port := none }
    | (some [], _) => .error .emptyPacket
    | (some p, q) =>
      match beatOf c.master p with
      | none => .ok { s with outq := q, cur := some p, port := none }
      | some b =>
        if ready b.type then .ok { s with outq := q, cur := none, port := some b }
        else .ok { s with outq := q, cur := some p, port := none } := by rfl

theorem outStep_inv {c : Cfg} {s : State} {acc : List BsFlit} {shown : List Beat} {made : List (MmType × List ScFlit)}
    {pres : List (List ScFlit)} (hf : FInv c s acc made) (hi : PInv c s shown made pres) (ready : MmType → Bool) :
    ∃ s' more, outStep c s ready = .ok s' ∧ FInv c s' acc made ∧
      PInv c s' (shown ++ s.port.toList) made (pres ++ more) ∧ s'.fifos = s.fifos ∧ s'.credit = s.credit ∧
      (∀ b, s'.port = some b → ready b.type = true) := by
  have hord := hi.order
  rw [List.append_assoc, ← taken_eq, ← List.append_assoc] at hord
  have hlen := taken_len s
  have hol := hf.outLen
  have hb := hi.beats
  rw [outStep_eq]
  rcases ht : taken s with ⟨_ | p, q⟩
  · rw [ht] at hord hlen
    refine ⟨_, [], rfl, ⟨hf.prio, hf.stream, hf.closed, hf.idle, hf.busy, hf.open_, hf.cnt, hf.le, hf.fifoLen, ?_, hf.heldVc⟩,
      ⟨?_, ?_⟩, rfl, rfl, by simp⟩
    · exact Nat.le_trans hlen hol
    · simpa using hord
    · simpa using hb
  · rw [ht] at hord hlen
    have hcl : Closed (·.tail) p := by
      have : p ∈ made.map (·.2) := by rw [hord]; simp
      obtain ⟨x, hx, rfl⟩ := List.mem_map.1 this
      exact (hf.closed x hx).1
    cases p with
    | nil =>
      obtain ⟨ini, last, h, -⟩ := hcl
      simp at h
    | cons f fs =>
      dsimp only
      have hF : ∀ (cur : Option (List ScFlit)) (port : Option Beat),
          FInv c { s with outq := q, cur := cur, port := port } acc made :=
        fun cur port => ⟨hf.prio, hf.stream, hf.closed, hf.idle, hf.busy, hf.open_, hf.cnt, hf.le, hf.fifoLen,
          Nat.le_trans hlen hol, hf.heldVc⟩
      have hstay : PInv c { s with outq := q, cur := some (f :: fs), port := none } (shown ++ s.port.toList) made (pres ++ []) :=
        ⟨by simpa using hord, by simpa using hb⟩
      cases hbt : beatOf c.master (f :: fs) with
      | none => exact ⟨_, [], rfl, hF _ _, hstay, rfl, rfl, by simp⟩
      | some b =>
        dsimp only
        by_cases hr : ready b.type = true
        · rw [if_pos hr]
          refine ⟨_, [f :: fs], rfl, hF _ _, ⟨by simpa using hord, ?_⟩, rfl, rfl, by simpa using hr⟩
          rw [List.map_append, hb]
          simp [hbt]
        · rw [if_neg hr]
          exact ⟨_, [], rfl, hF _ _, hstay, rfl, rfl, by simp⟩

/-! ## runs -/

/-- Every virtual channel is one of the packet types of the adapter. -/
def Mapped (c : Cfg) (l : List BsFlit) : Prop := ∀ f ∈ l, (c.classOf f.vc).isSome

theorem step_accepted (c : Cfg) (s : State) (h : Hist) (e : Event) :
    ∃ l, (step c s h e).1.accepted = h.accepted ++ l := by
  cases e with
  | noc a =>
    unfold step
    dsimp only
    cases s.held with
    | none => exact ⟨_, rfl⟩
    | some f => exact ⟨[], (List.append_nil _).symm⟩
  | adapter b =>
    unfold step
    dsimp only
    split <;> exact ⟨[], (List.append_nil _).symm⟩
  | node r => exact ⟨[], (List.append_nil _).symm⟩
  | tick => exact ⟨[], (List.append_nil _).symm⟩

theorem run_accepted (c : Cfg) (es : List Event) : ∀ (s : State) (h : Hist),
    ∃ l, (run c s h es).1.accepted = h.accepted ++ l := by
  induction es with
  | nil => intro s h; exact ⟨[], (List.append_nil _).symm⟩
  | cons e es ih =>
    intro s h
    obtain ⟨l, hl⟩ := step_accepted c s h e
    unfold run
    split
    · rename_i h' err he
      rw [he] at hl
      exact ⟨l, hl⟩
    · rename_i h' s' he
      rw [he] at hl
      obtain ⟨l', hl'⟩ := ih s' h'
      exact ⟨l ++ l', by rw [hl', hl, List.append_assoc]⟩

/-- Both invariants. -/
def Inv (c : Cfg) (s : State) (h : Hist) (made : List (MmType × List ScFlit)) (pres : List (List ScFlit)) : Prop :=
  FInv c s h.accepted made ∧ PInv c s (h.shown.map (·.1)) made pres

theorem step_inv {c : Cfg} {s : State} {h : Hist} {made : List (MmType × List ScFlit)} {pres : List (List ScFlit)}
    (hi : Inv c s h made pres) (e : Event) (hm : Mapped c (step c s h e).1.accepted) :
    ∃ s' made' more, (step c s h e).2 = .ok s' ∧ Inv c s' (step c s h e).1 (made ++ made') (pres ++ more) := by
  obtain ⟨hf, hp⟩ := hi
  cases e with
  | noc a =>
    unfold step at hm ⊢
    have : ∃ s', ejectStep c s a = .ok s' ∧
      FInv c s' (h.accepted ++ (match s.held with | none => a.toList | some _ => [])) made ∧
      s'.outq = s.outq ∧ s'.cur = s.cur ∧ s'.port = s.port ∧ s'.credit = s.credit := by
      apply ejectStep_inv hf
      intro f hs ha
      apply hm f
      rw [hs, ha]
      simp
    obtain ⟨s', h1, h2, h3, h4, h5, -⟩ := this
    refine ⟨s', [], [], h1, ?_, ?_⟩
    · rw [List.append_nil]
      cases hh : s.held with
      | none => rw [hh] at h2; exact h2
      | some f => rw [hh] at h2; simpa using h2
    · rw [List.append_nil, List.append_nil]
      have : PInv c s' (h.shown.map (·.1)) made pres := by
        constructor
        · rw [h3, h4]; exact hp.order
        · rw [h5]; exact hp.beats
      cases s.held with
      | none => exact this
      | some f => exact this
  | adapter b =>
    obtain ⟨s', v, made', h1, h2, h3, h4, h5⟩ := depackStep_inv hf b
    unfold step
    dsimp only
    rw [h1]
    refine ⟨s', made', [], rfl, h2, ?_⟩
    constructor
    · rw [List.map_append, hp.order, h3, h4]
      simp
    · rw [h5, List.append_nil]; exact hp.beats
  | node r =>
    obtain ⟨s', more, h1, h2, h3, -⟩ := outStep_inv hf hp r
    refine ⟨s', [], more, h1, ?_, ?_⟩
    · rw [List.append_nil]; exact h2
    · rw [List.append_nil]
      have : (step c s h (.node r)).1.shown.map (·.1) = h.shown.map (·.1) ++ s.port.toList := by
        unfold step
        cases s.port <;> simp
      rw [this]
      exact h3
  | tick =>
    refine ⟨_, [], [], rfl, ?_, ?_⟩
    · rw [List.append_nil]
      exact ⟨hf.prio, hf.stream, hf.closed, hf.idle, hf.busy, hf.open_, hf.cnt, hf.le, hf.fifoLen, hf.outLen, hf.heldVc⟩
    · rw [List.append_nil, List.append_nil]
      exact ⟨hp.order, hp.beats⟩

theorem run_inv {c : Cfg} (es : List Event) : ∀ {s : State} {h : Hist} {made : List (MmType × List ScFlit)}
    {pres : List (List ScFlit)}, Inv c s h made pres → Mapped c (run c s h es).1.accepted →
    ∃ s' made' pres', (run c s h es).2 = .ok s' ∧ Inv c s' (run c s h es).1 made' pres' := by
  induction es with
  | nil =>
    intro s h made pres hi _
    exact ⟨s, made, pres, rfl, hi⟩
  | cons e es ih =>
    intro s h made pres hi hm
    have hm1 : Mapped c (step c s h e).1.accepted := by
      intro f hf
      apply hm f
      unfold run
      split
      · rename_i h' err he
        rw [he] at hf
        exact hf
      · rename_i h' s' he
        rw [he] at hf
        obtain ⟨l, hl⟩ := run_accepted c es s' h'
        rw [hl]
        exact List.mem_append_left _ hf
    obtain ⟨s', made', more, h1, h2⟩ := step_inv hi e hm1
    have he : step c s h e = ((step c s h e).1, .ok s') := by rw [← h1]
    have hr : run c s h (e :: es) = run c s' (step c s h e).1 es := by
      rw [run, he]
    rw [hr] at hm ⊢
    exact ih h2 hm

end RadSim.MmSink
