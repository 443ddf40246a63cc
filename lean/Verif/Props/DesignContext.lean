import Verif.Model.DesignContext
import Mathlib.Data.List.Range
import Mathlib.Data.List.ReduceOption

/-! # Properties of port placement and base addresses (C24, C25) -/

namespace RadSim.Design

/-! ## C24 -/

theorem foldl_max_le (l : List Nat) : ∀ a, a ≤ l.foldl max a ∧ ∀ x ∈ l, x ≤ l.foldl max a := by
  induction l with
  | nil => intro a; exact ⟨Nat.le_refl _, by simp⟩
  | cons y l ih =>
    intro a
    obtain ⟨h1, h2⟩ := ih (max a y)
    rw [List.foldl_cons]
    refine ⟨by omega, ?_⟩
    intro x hx
    rcases List.mem_cons.mp hx with rfl | hx
    · omega
    · exact h2 x hx

theorem le_maxNodes {l : List Nat} {x : Nat} (h : x ∈ l) : x ≤ maxNodes l := (foldl_max_le l 0).2 x h

theorem lt_two_pow_ceilLog2 {n x : Nat} (h : x < n) : x < 2 ^ ceilLog2 n :=
  Nat.lt_of_lt_of_le h (Nat.le_pow_clog (by omega) n)

theorem pow_split {b s : Nat} (h : b + s = 64) : 2 ^ b * 2 ^ s = 2 ^ 64 := by
  rw [← Nat.pow_add, h]

/-- The number read from an address is the base number when the offset stays below the shift. -/
theorem shifted_toNat (b s v o : Nat) (hb : b + s = 64) (hv : v < 2 ^ b) (ho : o < 2 ^ s) :
    ((BitVec.ofNat 64 v) <<< s + BitVec.ofNat 64 o).toNat = v * 2 ^ s + o := by
  have hs : v * 2 ^ s + o < 2 ^ 64 := by
    have h1 : (v + 1) * 2 ^ s ≤ 2 ^ b * 2 ^ s := Nat.mul_le_mul_right _ hv
    rw [pow_split hb, Nat.add_mul, Nat.one_mul] at h1
    omega
  have hv64 : v < 2 ^ 64 := Nat.lt_of_lt_of_le hv (Nat.pow_le_pow_right (by omega) (by omega))
  have hm : v * 2 ^ s < 2 ^ 64 := by omega
  have ho64 : o < 2 ^ 64 := by omega
  rw [BitVec.toNat_add, BitVec.toNat_shiftLeft, BitVec.toNat_ofNat, BitVec.toNat_ofNat,
    Nat.mod_eq_of_lt hv64, Nat.shiftLeft_eq, Nat.mod_eq_of_lt hm, Nat.mod_eq_of_lt ho64,
    Nat.mod_eq_of_lt hs]

theorem headerNodes_single (rads : List (List Nat)) (h0 nodes : Nat) (hall : ∀ r ∈ rads, r.length = 1) :
    headerNodes [h0] (rads ++ [[nodes]]) = some [nodes] := by
  have key : ∀ (rads : List (List Nat)) (h0 : Nat), (∀ r ∈ rads, r.length = 1) →
      ∃ h, headerNodes [h0] rads = some [h] := by
    intro rads
    induction rads with
    | nil => intro h0 _; exact ⟨h0, rfl⟩
    | cons r rads ih =>
      intro h0 h
      obtain ⟨x, rfl⟩ := List.length_eq_one_iff.mp (h r (by simp))
      unfold headerNodes
      rw [List.foldlM_cons]
      exact ih x fun r hr => h r (by simp [hr])
  obtain ⟨h, hh⟩ := key rads h0 hall
  unfold headerNodes at hh ⊢
  rw [List.foldlM_append, hh]
  rfl

/-- **C24.** In a cluster of RADs with one NoC each, for a RAD whose node count needs as many bits as that
of the last RAD of the cluster, the base address of any node plus any offset inside its aperture
decodes to the node. -/
theorem C24_address_decodes_to_node_partial (h0 nodes last : Nat) (others : List (List Nat)) (node : Nat)
    (offset : Nat) (base : BitVec 64) (hnode : node < nodes) (h64 : ceilLog2 nodes ≤ 64)
    (hone : ∀ r ∈ others, r.length = 1) (hlast : ceilLog2 last = ceilLog2 nodes)
    (hb : baseAddress [nodes] 0 node = some base)
    (ho : offset < 2 ^ (64 - ceilLog2 nodes)) :
    ∃ w, nodeAddrW [h0] (others ++ [[last]]) = some w ∧
      decodeNode w (base + BitVec.ofNat 64 offset) = node := by
  refine ⟨ceilLog2 nodes, ?_, ?_⟩
  · unfold nodeAddrW
    rw [headerNodes_single others h0 last hone]
    simp [maxNodes, hlast]
  unfold baseAddress at hb
  have e1 : ceilLog2 [nodes].length = 0 := by simp [ceilLog2]
  have e2 : maxNodes [nodes] = nodes := by simp [maxNodes]
  simp only [e1, e2, Nat.sub_zero, Nat.zero_mul, Nat.zero_add] at hb
  split at hb
  swap
  · cases hb
  · cases hb
    have hlt := lt_two_pow_ceilLog2 hnode
    unfold decodeNode
    rw [BitVec.extractLsb'_toNat,
      shifted_toNat (ceilLog2 nodes) (64 - ceilLog2 nodes) node offset (by omega) hlt ho,
      Nat.shiftRight_eq_div_pow, Nat.add_comm, Nat.add_mul_div_right _ _ (Nat.two_pow_pos _),
      Nat.div_eq_of_lt ho, Nat.zero_add, Nat.mod_eq_of_lt hlt]

/-- Two RADs with the checked-in node count of 100: seven bits. -/
example : ∃ w, nodeAddrW [0] [[100], [100]] = some w ∧
    decodeNode w ((baseAddress [100] 0 93).getD 0 + BitVec.ofNat 64 0x12345) = 93 := by
  have h1 : ceilLog2 100 = 7 := by decide
  exact C24_address_decodes_to_node_partial 0 100 100 [[100]] 93 0x12345 _ (by decide)
    (by rw [h1]; decide) (by simp) rfl
    (by
      have : baseAddress [100] 0 93 = some ((BitVec.ofNat 64 93) <<< 57) := by decide
      rw [this]; rfl)
    (by rw [h1]; decide)

/-- **C24**, apertures: for any number of NoCs, addresses in the apertures of different nodes differ. -/
theorem C24_apertures_disjoint (numNodes : List Nat) (noc node noc' node' o o' : Nat)
    (b b' : BitVec 64) (h64 : ceilLog2 numNodes.length + ceilLog2 (maxNodes numNodes) ≤ 64)
    (hn : noc < numNodes.length) (hn' : noc' < numNodes.length)
    (hv : node < maxNodes numNodes) (hv' : node' < maxNodes numNodes)
    (hb : baseAddress numNodes noc node = some b) (hb' : baseAddress numNodes noc' node' = some b')
    (ho : o < 2 ^ (64 - ceilLog2 numNodes.length - ceilLog2 (maxNodes numNodes)))
    (ho' : o' < 2 ^ (64 - ceilLog2 numNodes.length - ceilLog2 (maxNodes numNodes)))
    (he : b + BitVec.ofNat 64 o = b' + BitVec.ofNat 64 o') : noc = noc' ∧ node = node' ∧ o = o' := by
  unfold baseAddress at hb hb'
  simp only at hb hb'
  generalize hA : ceilLog2 numNodes.length = A at *
  generalize hB : ceilLog2 (maxNodes numNodes) = B at *
  split at hb
  swap
  · cases hb
  rw [if_pos (by assumption)] at hb'
  cases hb
  cases hb'
  have f1 : node < 2 ^ B := hB ▸ lt_two_pow_ceilLog2 hv
  have f2 : node' < 2 ^ B := hB ▸ lt_two_pow_ceilLog2 hv'
  have g1 : noc < 2 ^ A := hA ▸ lt_two_pow_ceilLog2 hn
  have g2 : noc' < 2 ^ A := hA ▸ lt_two_pow_ceilLog2 hn'
  have bound : ∀ x y : Nat, x < 2 ^ A → y < 2 ^ B → x * 2 ^ B + y < 2 ^ (A + B) := by
    intro x y hx hy
    have h1 : (x + 1) * 2 ^ B ≤ 2 ^ A * 2 ^ B := Nat.mul_le_mul_right _ hx
    rw [← Nat.pow_add, Nat.add_mul, Nat.one_mul] at h1
    omega
  have e := congrArg BitVec.toNat he
  rw [shifted_toNat (A + B) (64 - A - B) _ o (by omega) (bound _ _ g1 f1) ho,
    shifted_toNat (A + B) (64 - A - B) _ o' (by omega) (bound _ _ g2 f2) ho'] at e
  have d1 := congrArg (· / 2 ^ (64 - A - B)) e
  have d2 := congrArg (· % 2 ^ (64 - A - B)) e
  simp only [Nat.add_comm _ o, Nat.add_comm _ o', Nat.add_mul_div_right _ _ (Nat.two_pow_pos _),
    Nat.div_eq_of_lt ho, Nat.div_eq_of_lt ho', Nat.zero_add, Nat.add_mul_mod_self_right,
    Nat.mod_eq_of_lt ho, Nat.mod_eq_of_lt ho'] at d1 d2
  have q1 := congrArg (· / 2 ^ B) d1
  have q2 := congrArg (· % 2 ^ B) d1
  simp only [Nat.add_comm _ node, Nat.add_comm _ node',
    Nat.add_mul_div_right _ _ (Nat.two_pow_pos _), Nat.div_eq_of_lt f1, Nat.div_eq_of_lt f2,
    Nat.zero_add, Nat.add_mul_mod_self_right, Nat.mod_eq_of_lt f1, Nat.mod_eq_of_lt f2] at q1 q2
  exact ⟨q1, q2, d2⟩

example : ∃ b b', baseAddress [4, 9] 1 3 = some b ∧ baseAddress [4, 9] 0 3 = some b' ∧
    b.toNat = 19 * 2 ^ 59 ∧ b'.toNat = 3 * 2 ^ 59 := by
  refine ⟨_, _, rfl, rfl, ?_, ?_⟩ <;> decide

/-- **C24**, several NoCs: the base address contains the NoC number, the decoder has no field for it,
so with two NoCs of four nodes node 3 of NoC 0 is taken for node 1. -/
theorem C24_two_nocs_violated :
    ∃ base w, baseAddress [4, 4] 0 3 = some base ∧ nodeAddrW [0, 0] [[4, 4]] = some w ∧
      decodeNode w base = 1 := by
  refine ⟨_, _, rfl, rfl, ?_⟩; decide

/-- **C24**, RADs of different size: the decoder width comes from the RAD configured last, the base
address from the RAD itself. Node 3 of a four-node RAD followed by a RAD with 16 nodes is taken for
node 12; node 12 of a 16-node RAD followed by one with four nodes is taken for node 3. -/
theorem C24_unequal_rads_violated :
    (∃ base w, baseAddress [4] 0 3 = some base ∧ nodeAddrW [0] [[4], [16]] = some w ∧
      decodeNode w base = 12) ∧
    (∃ base w, baseAddress [16] 0 12 = some base ∧ nodeAddrW [0] [[16], [4]] = some w ∧
      decodeNode w base = 3) := by
  constructor <;> (refine ⟨_, _, rfl, rfl, ?_⟩; decide)

/-- **C24**, degenerate: a single node makes the address computation shift by 64, which is undefined. -/
theorem C24_single_node_violated : baseAddress [1] 0 0 = none := by decide

/-! ## C25 -/

section

variable {P M : Type} [DecidableEq P]

/-- The ports named by a placement file in file order, with their node and whether they are
AXI-Stream. -/
def placed (d : Design P M) (ls : List (Line P M)) : List (P × (Nat × Nat) × Bool) :=
  ls.flatMap fun
    | .port p noc node axis => [(p, (noc, node), axis)]
    | .module m noc node axis =>
      match d.modules m with
      | none => []
      | some i => (if axis then i.axisSlaves ++ i.axisMasters else i.mmSlaves ++ i.mmMasters).map
          fun p => (p, (noc, node), axis)

/-- Ports of node `k`, in file order. -/
def onNode (L : List (P × (Nat × Nat) × Bool)) (k : Nat × Nat) : List P :=
  (L.filter fun x => x.2.1 = k).map Prod.fst

/-- State of the parser between two lines. -/
structure PInv (d : Design P M) (c : Ctx P) (L : List (P × (Nat × Nat) × Bool)) : Prop where
  ports : ∀ k, (c.ports k).getD [] = onNode L k
  place : ∀ x ∈ L, c.place x.1 = some (x.2.1.1, x.2.1.2, 0)
  base : ∀ x ∈ L, x.2.2 = false → c.base x.1 = baseAddress d.numNodes x.2.1.1 x.2.1.2
  fresh : ∀ k, c.isMm k = none → c.ports k = none

omit [DecidableEq P] in
theorem onNode_append (L L' : List (P × (Nat × Nat) × Bool)) (k : Nat × Nat) :
    onNode (L ++ L') k = onNode L k ++ onNode L' k := by
  simp [onNode]

omit [DecidableEq P] in
theorem onNode_single (p : P) (j k : Nat × Nat) (a : Bool) :
    onNode [(p, j, a)] k = if j = k then [p] else [] := by
  unfold onNode
  by_cases h : j = k <;> simp [h]

theorem addAxis_inv (d : Design P M) (k : Nat × Nat) (c c' : Ctx P) (p : P)
    (L : List (P × (Nat × Nat) × Bool)) (hn : p ∉ L.map Prod.fst)
    (h1 : ∀ k, (c.ports k).getD [] = onNode L k)
    (h2 : ∀ x ∈ L, c.place x.1 = some (x.2.1.1, x.2.1.2, 0))
    (h3 : ∀ x ∈ L, x.2.2 = false → c.base x.1 = baseAddress d.numNodes x.2.1.1 x.2.1.2)
    (h4 : ∀ j, j ≠ k → c.isMm j = none → c.ports j = none)
    (h : addAxis k c p = some c') :
    (∀ j, (c'.ports j).getD [] = onNode (L ++ [(p, k, true)]) j) ∧
    (∀ x ∈ L ++ [(p, k, true)], c'.place x.1 = some (x.2.1.1, x.2.1.2, 0)) ∧
    (∀ x ∈ L ++ [(p, k, true)], x.2.2 = false → c'.base x.1 = baseAddress d.numNodes x.2.1.1 x.2.1.2) ∧
    (∀ j, j ≠ k → c'.isMm j = none → c'.ports j = none) ∧ c'.isMm = c.isMm := by
  have hne : ∀ x ∈ L, x.1 ≠ p := fun x hx e => hn (e ▸ List.mem_map_of_mem hx)
  unfold addAxis at h
  simp only at h
  split at h
  · cases h
  · cases hp : c.ports k with
    | none =>
      rw [hp] at h
      cases h
      refine ⟨?_, ?_, ?_, ?_, rfl⟩
      · intro j
        rw [onNode_append, onNode_single]
        by_cases hj : j = k
        · subst hj
          have := h1 j
          rw [hp] at this
          simp [put, ← this]
        · simp [put, hj, h1 j, Ne.symm hj]
      · intro x hx
        rcases List.mem_append.mp hx with hx | hx
        · simp [put, hne x hx, h2 x hx]
        · simp at hx; subst hx; simp [put]
      · intro x hx hm
        rcases List.mem_append.mp hx with hx | hx
        · exact h3 x hx hm
        · simp at hx; subst hx; cases hm
      · intro j hj
        simp only [put, hj, if_false]
        exact h4 j hj
    | some l =>
      rw [hp] at h
      cases h
      refine ⟨?_, ?_, ?_, ?_, rfl⟩
      · intro j
        rw [onNode_append, onNode_single]
        by_cases hj : j = k
        · subst hj
          have := h1 j
          rw [hp] at this
          simp at this
          simp [put, ← this]
        · simp [put, hj, h1 j, Ne.symm hj]
      · intro x hx
        rcases List.mem_append.mp hx with hx | hx
        · simp [put, hne x hx, h2 x hx]
        · simp at hx; subst hx; simp [put]
      · intro x hx hm
        rcases List.mem_append.mp hx with hx | hx
        · exact h3 x hx hm
        · simp at hx; subst hx; cases hm
      · intro j hj
        simp only [put, hj, if_false]
        exact h4 j hj

theorem addAxis_loop (d : Design P M) (k : Nat × Nat) : ∀ (ps : List P) (c c' : Ctx P)
    (L : List (P × (Nat × Nat) × Bool)), (L.map Prod.fst ++ ps).Nodup →
    (∀ k, (c.ports k).getD [] = onNode L k) →
    (∀ x ∈ L, c.place x.1 = some (x.2.1.1, x.2.1.2, 0)) →
    (∀ x ∈ L, x.2.2 = false → c.base x.1 = baseAddress d.numNodes x.2.1.1 x.2.1.2) →
    (∀ j, j ≠ k → c.isMm j = none → c.ports j = none) →
    ps.foldlM (addAxis k) c = some c' →
    (∀ j, (c'.ports j).getD [] = onNode (L ++ ps.map fun p => (p, k, true)) j) ∧
    (∀ x ∈ L ++ ps.map fun p => (p, k, true), c'.place x.1 = some (x.2.1.1, x.2.1.2, 0)) ∧
    (∀ x ∈ L ++ ps.map fun p => (p, k, true), x.2.2 = false →
      c'.base x.1 = baseAddress d.numNodes x.2.1.1 x.2.1.2) ∧
    (∀ j, j ≠ k → c'.isMm j = none → c'.ports j = none) ∧ c'.isMm = c.isMm := by
  intro ps
  induction ps with
  | nil =>
    intro c c' L _ h1 h2 h3 h4 h
    cases h
    simp only [List.map_nil, List.append_nil]
    exact ⟨h1, h2, h3, h4, trivial⟩
  | cons p ps ih =>
    intro c c' L hn h1 h2 h3 h4 h
    rw [List.foldlM_cons] at h
    cases hp : addAxis k c p with
    | none => rw [hp] at h; cases h
    | some c1 =>
      rw [hp] at h
      have hpn : p ∉ L.map Prod.fst := by
        intro hm
        exact (List.nodup_append.mp hn).2.2 p hm p (by simp) rfl
      obtain ⟨g1, g2, g3, g4, g5⟩ := addAxis_inv d k c c1 p L hpn h1 h2 h3 h4 hp
      have := ih c1 c' (L ++ [(p, k, true)])
        (by simpa [List.append_assoc] using hn) g1 g2 g3 g4 h
      rw [g5] at this
      simpa [List.append_assoc] using this

theorem parseLine_inv (d : Design P M) (c c' : Ctx P) (l : Line P M)
    (L : List (P × (Nat × Nat) × Bool)) (hi : PInv d c L)
    (hn : ((L ++ placed d [l]).map Prod.fst).Nodup) (h : parseLine d c l = some c') :
    PInv d c' (L ++ placed d [l]) := by
  cases l with
  | port p noc node axis =>
    simp only [placed, List.flatMap_cons, List.flatMap_nil, List.append_nil] at hn ⊢
    have hpn : p ∉ L.map Prod.fst := by
      intro hm
      rw [List.map_append] at hn
      exact (List.nodup_append.mp hn).2.2 p hm p (by simp) rfl
    have hne : ∀ x ∈ L, x.1 ≠ p := fun x hx e => hpn (e ▸ List.mem_map_of_mem hx)
    simp only [parseLine] at h
    by_cases hok : noc < d.numNodes.length ∧ node < d.numNodes.getD noc 0
    swap
    · rw [if_neg hok] at h; cases h
    rw [if_pos hok] at h
    cases axis with
    | true =>
      simp only [if_true] at h
      cases ha : addAxis (noc, node) c p with
      | none => rw [ha] at h; cases h
      | some c1 =>
        rw [ha] at h
        cases h
        obtain ⟨g1, g2, g3, g4, g5⟩ := addAxis_inv d (noc, node) c c1 p L hpn hi.ports hi.place
          hi.base (fun j _ => hi.fresh j) ha
        refine ⟨g1, g2, g3, ?_⟩
        intro j hj
        by_cases e : j = (noc, node)
        · subst e; simp [put] at hj
        · simp only [put, e, if_false] at hj
          exact g4 j e hj
    | false =>
      simp only [Bool.false_eq_true, if_false] at h
      split at h
      · cases h
      next hm =>
      rw [ne_eq, not_not] at hm
      have hp0 := hi.fresh _ hm
      cases hb : baseAddress d.numNodes noc node with
      | none => rw [hb] at h; cases h
      | some a =>
        rw [hb] at h
        cases h
        refine ⟨?_, ?_, ?_, ?_⟩
        · intro j
          rw [onNode_append, onNode_single]
          by_cases hj : j = (noc, node)
          · subst hj
            have := hi.ports (noc, node)
            rw [hp0] at this
            simp [put, ← this]
          · simp [put, hj, hi.ports j, Ne.symm hj]
        · intro x hx
          rcases List.mem_append.mp hx with hx | hx
          · simp [put, hne x hx, hi.place x hx]
          · simp at hx; subst hx; simp [put]
        · intro x hx hm
          rcases List.mem_append.mp hx with hx | hx
          · simp only [put, hne x hx, if_false]; exact hi.base x hx hm
          · simp at hx; subst hx; simp [put, hb]
        · intro j hj
          by_cases e : j = (noc, node)
          · subst e; simp [put] at hj
          · simp only [put, e, if_false] at hj ⊢
            exact hi.fresh j hj
  | module m noc node axis =>
    simp only [placed, List.flatMap_cons, List.flatMap_nil, List.append_nil] at hn ⊢
    simp only [parseLine] at h
    by_cases hok : noc < d.numNodes.length ∧ node < d.numNodes.getD noc 0
    swap
    · rw [if_neg hok] at h; cases h
    rw [if_pos hok] at h
    cases hmod : d.modules m with
    | none => rw [hmod] at h; cases h
    | some i =>
      rw [hmod] at h
      simp only [hmod] at hn ⊢
      cases axis with
      | true =>
        simp only [if_true] at h hn ⊢
        cases ha : (i.axisSlaves ++ i.axisMasters).foldlM (addAxis (noc, node)) c with
        | none => rw [ha] at h; cases h
        | some c1 =>
          rw [ha] at h
          cases h
          obtain ⟨g1, g2, g3, g4, g5⟩ := addAxis_loop d (noc, node) _ c c1 L
            (by
              have : ((i.axisSlaves ++ i.axisMasters).map fun p => (p, ((noc, node), true))).map Prod.fst
                  = i.axisSlaves ++ i.axisMasters := by
                rw [List.map_map]; exact List.map_id' _
              rw [List.map_append, this] at hn
              exact hn) hi.ports hi.place hi.base
            (fun j _ => hi.fresh j) ha
          refine ⟨g1, g2, g3, ?_⟩
          intro j hj
          by_cases e : j = (noc, node)
          · subst e; simp [put] at hj
          · simp only [put, e, if_false] at hj
            exact g4 j e hj
      | false =>
        simp only [Bool.false_eq_true, if_false] at h hn ⊢
        -- at most one port in total can be added
        have one : ∀ (c c1 : Ctx P) (p : P), (∀ j, c.isMm j = none → c.ports j = none) →
            addMm d (noc, node) c p = some c1 →
            c.isMm (noc, node) = none ∧
            ∃ a, baseAddress d.numNodes noc node = some a ∧
              c1 = { place := put c.place p (some (noc, node, 0)),
                     ports := put c.ports (noc, node) (some [p]),
                     isMm := put c.isMm (noc, node) (some true),
                     base := put c.base p (some a) } := by
          intro c c1 p hf hadd
          unfold addMm at hadd
          simp only at hadd
          split at hadd
          · cases hadd
          next hm =>
          rw [ne_eq, not_not] at hm
          rw [hf _ hm] at hadd
          simp only at hadd
          cases hb : baseAddress d.numNodes noc node with
          | none => rw [hb] at hadd; cases hadd
          | some a => rw [hb] at hadd; cases hadd; exact ⟨hm, a, rfl, rfl⟩
        have two : ∀ (c c1 : Ctx P) (p q : P), (∀ j, c.isMm j = none → c.ports j = none) →
            addMm d (noc, node) c p = some c1 → addMm d (noc, node) c1 q = none := by
          intro c c1 p q hf hadd
          obtain ⟨-, a, -, rfl⟩ := one c c1 p hf hadd
          unfold addMm
          simp [put]
        have single : ∀ (p : P) (c1 : Ctx P), p ∉ L.map Prod.fst → addMm d (noc, node) c p = some c1 →
            PInv d c1 (L ++ [(p, (noc, node), false)]) := by
          intro p c1 hpn hadd
          have hne : ∀ x ∈ L, x.1 ≠ p := fun x hx e => hpn (e ▸ List.mem_map_of_mem hx)
          obtain ⟨hm, a, hb, rfl⟩ := one c c1 p hi.fresh hadd
          have hp0 := hi.fresh _ hm
          refine ⟨?_, ?_, ?_, ?_⟩
          · intro j
            rw [onNode_append, onNode_single]
            by_cases hj : j = (noc, node)
            · subst hj
              have := hi.ports (noc, node)
              rw [hp0] at this
              simp [put, ← this]
            · simp [put, hj, hi.ports j, Ne.symm hj]
          · intro x hx
            rcases List.mem_append.mp hx with hx | hx
            · simp [put, hne x hx, hi.place x hx]
            · simp at hx; subst hx; simp [put]
          · intro x hx hm
            rcases List.mem_append.mp hx with hx | hx
            · simp only [put, hne x hx, if_false]; exact hi.base x hx hm
            · simp at hx; subst hx; simp [put, hb]
          · intro j hj
            by_cases e : j = (noc, node)
            · subst e; simp [put] at hj
            · simp only [put, e, if_false] at hj ⊢
              exact hi.fresh j hj
        cases hs : i.mmSlaves with
        | nil =>
          rw [hs] at h hn
          simp only [List.map_nil, List.reduceOption_nil, List.foldlM_nil, List.nil_append] at h hn ⊢
          cases hmm : i.mmMasters with
          | nil =>
            rw [hmm] at h
            simp only [List.map_nil, List.reduceOption_nil, List.foldlM_nil] at h
            cases h
            simpa [placed] using hi
          | cons p ps =>
            rw [hmm] at h hn
            simp only [List.map_cons, List.head?_cons, List.reduceOption_cons_of_some,
              List.foldlM_cons, Option.pure_def] at h
            cases ha : addMm d (noc, node) c p with
            | none => rw [ha] at h; cases h
            | some c1 =>
              rw [ha] at h
              cases ps with
              | nil =>
                simp only [List.map_nil, List.reduceOption_nil, List.foldlM_nil] at h
                cases h
                refine single p _ ?_ ha
                intro hm
                rw [List.map_append] at hn
                exact (List.nodup_append.mp hn).2.2 p hm p (by simp) rfl
              | cons q ps =>
                simp only [List.map_cons, List.reduceOption_cons_of_some, List.foldlM_cons,
                  Option.bind_eq_bind, Option.bind_some] at h
                rw [two c c1 p p hi.fresh ha] at h
                cases h
        | cons p ps =>
          rw [hs] at h hn
          simp only [List.map_cons, List.head?_cons, List.reduceOption_cons_of_some,
            List.foldlM_cons] at h
          cases ha : addMm d (noc, node) c p with
          | none => rw [ha] at h; cases h
          | some c1 =>
            rw [ha] at h
            cases ps with
            | nil =>
              simp only [List.map_nil, List.reduceOption_nil, List.foldlM_nil,
                Option.bind_eq_bind, Option.bind_some] at h
              cases hmm : i.mmMasters with
              | nil =>
                rw [hmm] at h hn
                simp only [List.map_nil, List.reduceOption_nil, List.foldlM_nil] at h
                cases h
                refine single p _ ?_ ha
                intro hm
                rw [List.map_append] at hn
                exact (List.nodup_append.mp hn).2.2 p hm p (by simp) rfl
              | cons q qs =>
                rw [hmm] at h
                simp only [List.map_cons, List.head?_cons, List.reduceOption_cons_of_some,
                  List.foldlM_cons, Option.pure_def] at h
                rw [two c c1 p q hi.fresh ha] at h
                cases h
            | cons q ps =>
              simp only [List.map_cons, List.reduceOption_cons_of_some, List.foldlM_cons,
                Option.bind_eq_bind, Option.bind_some] at h
              rw [two c c1 p p hi.fresh ha] at h
              cases h

omit [DecidableEq P] in
theorem placed_append (d : Design P M) (a b : List (Line P M)) :
    placed d (a ++ b) = placed d a ++ placed d b := by simp [placed, List.flatMap_append]

theorem parse_inv (d : Design P M) : ∀ (ls : List (Line P M)) (c c' : Ctx P)
    (L : List (P × (Nat × Nat) × Bool)), PInv d c L → ((L ++ placed d ls).map Prod.fst).Nodup →
    ls.foldlM (parseLine d) c = some c' → PInv d c' (L ++ placed d ls) := by
  intro ls
  induction ls with
  | nil => intro c c' L hi _ h; cases h; simpa [placed] using hi
  | cons l ls ih =>
    intro c c' L hi hn h
    rw [List.foldlM_cons] at h
    have e : placed d (l :: ls) = placed d [l] ++ placed d ls := placed_append d [l] ls
    rw [e, ← List.append_assoc] at hn ⊢
    cases hp : parseLine d c l with
    | none => rw [hp] at h; cases h
    | some c1 =>
      rw [hp] at h
      refine ih c1 c' _ (parseLine_inv d c c1 l L hi ?_ hp) hn h
      rw [List.map_append] at hn
      exact (List.nodup_append.mp hn).1

theorem numberPorts_spec (isSlave : P → Bool) (k : Nat × Nat) : ∀ (ps : List P) (s m : Nat) (c : Ctx P),
    ps.Nodup → (∀ p ∈ ps, ∃ x, c.place p = some (k.1, k.2, x)) →
    (numberPorts isSlave ps s m c).ports = c.ports ∧
    (numberPorts isSlave ps s m c).base = c.base ∧
    (∀ p, p ∉ ps → (numberPorts isSlave ps s m c).place p = c.place p) ∧
    (∀ p ∈ ps, ∃ x, (numberPorts isSlave ps s m c).place p = some (k.1, k.2, x)) ∧
    (∀ dir, (ps.filter fun p => isSlave p == dir).map (numberPorts isSlave ps s m c).place =
      (List.range' (if dir then m else s) (ps.filter fun p => isSlave p == dir).length).map
        fun i => some (k.1, k.2, i)) := by
  intro ps
  induction ps with
  | nil => intro s m c _ _; exact ⟨rfl, rfl, fun _ _ => rfl, by simp, by simp⟩
  | cons p ps ih =>
    intro s m c hn hp
    rw [List.nodup_cons] at hn
    obtain ⟨x, hx⟩ := hp p (by simp)
    have hother : ∀ v q, q ∈ ps → put c.place p v q = c.place q := by
      intro v q hq
      have : q ≠ p := fun e => hn.1 (e ▸ hq)
      simp [put, this]
    unfold numberPorts
    cases hs : isSlave p with
    | true =>
      simp only [if_true]
      obtain ⟨i1, i0, i2, i3, i4⟩ := ih s (m + 1)
        { c with place := put c.place p ((c.place p).map fun x => (x.1, x.2.1, m)) } hn.2
        (fun q hq => by simp only [hother _ q hq]; exact hp q (by simp [hq]))
      have hpp := i2 p hn.1
      simp only [put, hx, Option.map_some, if_true] at hpp
      refine ⟨i1, i0, ?_, ?_, ?_⟩
      · intro q hq
        simp only [List.mem_cons, not_or] at hq
        rw [i2 q hq.2]
        simp [put, hq.1]
      · intro q hq
        rcases List.mem_cons.mp hq with rfl | hq
        · exact ⟨m, by simp only [hx, Option.map_some]; exact hpp⟩
        · exact i3 q hq
      · intro dir
        cases dir with
        | true =>
          have := i4 true
          simp only [if_true] at this
          simp only [List.filter_cons, hs, beq_self_eq_true, if_true, List.map_cons,
            List.length_cons, List.range'_succ, this]
          congr 1
          simp only [hx, Option.map_some]; exact hpp
        | false =>
          have := i4 false
          simp only [List.filter_cons, hs, show (true == false) = false from rfl,
            Bool.false_eq_true, if_false] at this ⊢
          exact this
    | false =>
      simp only [Bool.false_eq_true, if_false]
      obtain ⟨i1, i0, i2, i3, i4⟩ := ih (s + 1) m
        { c with place := put c.place p ((c.place p).map fun x => (x.1, x.2.1, s)) } hn.2
        (fun q hq => by simp only [hother _ q hq]; exact hp q (by simp [hq]))
      have hpp := i2 p hn.1
      simp only [put, hx, Option.map_some, if_true] at hpp
      refine ⟨i1, i0, ?_, ?_, ?_⟩
      · intro q hq
        simp only [List.mem_cons, not_or] at hq
        rw [i2 q hq.2]
        simp [put, hq.1]
      · intro q hq
        rcases List.mem_cons.mp hq with rfl | hq
        · exact ⟨s, by simp only [hx, Option.map_some]; exact hpp⟩
        · exact i3 q hq
      · intro dir
        cases dir with
        | true =>
          have := i4 true
          simp only [List.filter_cons, hs, show (false == true) = false from rfl,
            Bool.false_eq_true, if_false] at this ⊢
          exact this
        | false =>
          have := i4 false
          simp only [Bool.false_eq_true, if_false] at this
          simp only [List.filter_cons, hs, beq_self_eq_true, if_true, List.map_cons,
            List.length_cons, Bool.false_eq_true, if_false, List.range'_succ, this]
          congr 1
          simp only [hx, Option.map_some]; exact hpp

omit [DecidableEq P] in
theorem onNode_mem {L : List (P × (Nat × Nat) × Bool)} {k : Nat × Nat} {p : P}
    (h : p ∈ onNode L k) : ∃ a, (p, k, a) ∈ L := by
  unfold onNode at h
  obtain ⟨x, hx, rfl⟩ := List.mem_map.mp h
  obtain ⟨h1, h2⟩ := List.mem_filter.mp hx
  simp only [decide_eq_true_eq] at h2
  subst h2
  exact ⟨x.2.2, h1⟩

omit [DecidableEq P] in
theorem onNode_nodup {L : List (P × (Nat × Nat) × Bool)} (k : Nat × Nat)
    (h : (L.map Prod.fst).Nodup) : (onNode L k).Nodup :=
  h.sublist (List.filter_sublist.map _)

omit [DecidableEq P] in
theorem eq_of_fst_nodup {β : Type} : ∀ (L : List (P × β)), (L.map Prod.fst).Nodup →
    ∀ {x y : P × β}, x ∈ L → y ∈ L → x.1 = y.1 → x = y
  | [], _, _, _, hx, _, _ => absurd hx (by simp)
  | z :: L, h, x, y, hx, hy, e => by
    rw [List.map_cons, List.nodup_cons] at h
    rcases List.mem_cons.mp hx with rfl | hx'
    · rcases List.mem_cons.mp hy with rfl | hy'
      · rfl
      · exact absurd (by rw [e]; exact List.mem_map_of_mem hy') h.1
    · rcases List.mem_cons.mp hy with rfl | hy'
      · exact absurd (by rw [← e]; exact List.mem_map_of_mem hx') h.1
      · exact eq_of_fst_nodup L h.2 hx' hy' e

omit [DecidableEq P] in
theorem onNode_disjoint {L : List (P × (Nat × Nat) × Bool)} {k j : Nat × Nat} {p : P}
    (h : (L.map Prod.fst).Nodup) (hk : p ∈ onNode L k) (hj : p ∈ onNode L j) : k = j := by
  obtain ⟨a, ha⟩ := onNode_mem hk
  obtain ⟨b, hb⟩ := onNode_mem hj
  exact congrArg (fun x => x.2.1) (eq_of_fst_nodup L h ha hb rfl)

theorem build_spec (isSlave : P → Bool) (L : List (P × (Nat × Nat) × Bool))
    (hn : (L.map Prod.fst).Nodup) : ∀ (order : List (Nat × Nat)) (c : Ctx P), order.Nodup →
    (∀ k, (c.ports k).getD [] = onNode L k) →
    (∀ k, ∀ p ∈ onNode L k, ∃ x, c.place p = some (k.1, k.2, x)) →
    (build isSlave order c).base = c.base ∧
    (∀ k, k ∉ order → ∀ p ∈ onNode L k, (build isSlave order c).place p = c.place p) ∧
    (∀ k ∈ order, ∀ dir, ((onNode L k).filter fun p => isSlave p == dir).map
        (build isSlave order c).place =
      (List.range ((onNode L k).filter fun p => isSlave p == dir).length).map
        fun i => some (k.1, k.2, i)) := by
  intro order
  induction order with
  | nil => intro c _ _ _; exact ⟨rfl, fun _ _ _ _ => rfl, by simp⟩
  | cons k order ih =>
    intro c hno h1 h2
    rw [List.nodup_cons] at hno
    unfold build
    rw [List.foldl_cons]
    obtain ⟨a1, a0, a2, a3, a4⟩ := numberPorts_spec isSlave k ((c.ports k).getD []) 0 0 c
      (by rw [h1]; exact onNode_nodup k hn) (by rw [h1]; exact h2 k)
    have b2 : ∀ j, j ≠ k → ∀ p ∈ onNode L j,
        (numberPorts isSlave ((c.ports k).getD []) 0 0 c).place p = c.place p := by
      intro j hj p hp
      refine a2 p ?_
      rw [h1]
      intro hk
      exact hj (onNode_disjoint hn hp hk)
    obtain ⟨i0, i1, i2⟩ := ih (numberPorts isSlave ((c.ports k).getD []) 0 0 c) hno.2
      (by rw [a1]; exact h1) (by
        intro j p hp
        by_cases hj : j = k
        · subst hj; exact a3 p (by rw [h1]; exact hp)
        · rw [b2 j hj p hp]; exact h2 j p hp)
    refine ⟨i0.trans a0, ?_, ?_⟩
    · intro j hj p hp
      simp only [List.mem_cons, not_or] at hj
      exact (i1 j hj.2 p hp).trans (b2 j hj.1 p hp)
    · intro j hj dir
      rcases List.mem_cons.mp hj with rfl | hj
      · have e : ((onNode L j).filter fun p => isSlave p == dir).map (build isSlave order
            (numberPorts isSlave ((c.ports j).getD []) 0 0 c)).place =
            ((onNode L j).filter fun p => isSlave p == dir).map
              (numberPorts isSlave ((c.ports j).getD []) 0 0 c).place := by
          apply List.map_congr_left
          intro p hp
          exact i1 j hno.1 p (List.mem_of_mem_filter hp)
        have := a4 dir
        rw [h1] at this e ⊢
        refine e.trans (this.trans ?_)
        rw [List.range_eq_range']
        cases dir <;> rfl
      · exact i2 j hj dir

/-- **C25.** If no port is placed twice, then after parsing any placement file and for any iteration
order of the node table, the ports of every node and direction carry the node's coordinates and
the interface numbers 0, 1, 2, ... in file order; these are the positions in the port list of the
adapter built for that node. Hence the numbers are unique and dense. -/
theorem C25_interface_ids_dense_partial (d : Design P M) (isSlave : P → Bool) (ls : List (Line P M))
    (c : Ctx P) (order : List (Nat × Nat)) (h : parse d ls = some c)
    (hn : ((placed d ls).map Prod.fst).Nodup) (ho : order.Nodup)
    (hall : ∀ k, c.ports k ≠ none → k ∈ order) (k : Nat × Nat) (dir : Bool) :
    ((onNode (placed d ls) k).filter fun p => isSlave p == dir).map (build isSlave order c).place =
      (List.range ((onNode (placed d ls) k).filter fun p => isSlave p == dir).length).map
        (fun i => some (k.1, k.2, i)) ∧
    adapterPorts isSlave dir ((c.ports k).getD []) =
      (onNode (placed d ls) k).filter fun p => isSlave p == dir := by
  have hi := parse_inv d ls Ctx.empty c []
    ⟨by intro k; simp [Ctx.empty, onNode], by simp, by simp, by intro k _; rfl⟩ hn h
  rw [List.nil_append] at hi
  have h2 : ∀ k, ∀ p ∈ onNode (placed d ls) k, ∃ x, c.place p = some (k.1, k.2, x) := by
    intro k p hp
    obtain ⟨a, ha⟩ := onNode_mem hp
    exact ⟨0, hi.place _ ha⟩
  obtain ⟨-, -, b2⟩ := build_spec isSlave (placed d ls) hn order c ho hi.ports h2
  refine ⟨?_, by unfold adapterPorts; rw [hi.ports]⟩
  by_cases hk : k ∈ order
  · exact b2 k hk dir
  · have : c.ports k = none := by
      by_contra hc
      exact hk (hall k hc)
    have e := hi.ports k
    rw [this] at e
    simp only [Option.getD_none] at e
    rw [← e]
    rfl

/-- **C24**, link to placement: the address reported for an AXI-MM port is the base address of the
node it was placed on. -/
theorem C24_port_base_is_node_base (d : Design P M) (isSlave : P → Bool) (ls : List (Line P M))
    (c : Ctx P) (order : List (Nat × Nat)) (h : parse d ls = some c)
    (hn : ((placed d ls).map Prod.fst).Nodup) (ho : order.Nodup) (p : P) (noc node : Nat)
    (hp : (p, (noc, node), false) ∈ placed d ls) :
    (build isSlave order c).base p = baseAddress d.numNodes noc node := by
  have hi := parse_inv d ls Ctx.empty c []
    ⟨by intro k; simp [Ctx.empty, onNode], by simp, by simp, by intro k _; rfl⟩ hn h
  rw [List.nil_append] at hi
  have h2 : ∀ k, ∀ p ∈ onNode (placed d ls) k, ∃ x, c.place p = some (k.1, k.2, x) := by
    intro k p hp
    obtain ⟨a, ha⟩ := onNode_mem hp
    exact ⟨0, hi.place _ ha⟩
  obtain ⟨b0, -, -⟩ := build_spec isSlave (placed d ls) hn order c ho hi.ports h2
  rw [b0]
  exact hi.base _ hp rfl

end

/-- Ports are numbers; the odd ones are slave ports. Module 0 has two AXI-Stream slaves and one
master, module 1 one AXI-MM slave, module 2 one AXI-MM slave and one AXI-MM master. -/
def sampleDesign : Design Nat Nat where
  numNodes := [16]
  modules
    | 0 => some ⟨[1, 3], [2], [], []⟩
    | 1 => some ⟨[], [], [5], []⟩
    | 2 => some ⟨[], [], [7], [8]⟩
    | _ => none

/-- A placement with two modules and a single port sharing a node. -/
def samplePlacement : List (Line Nat Nat) :=
  [.module 0 0 4 true, .module 1 0 9 false, .port 11 0 4 true]

example : ∃ c, parse sampleDesign samplePlacement = some c ∧
    ((placed sampleDesign samplePlacement).map Prod.fst).Nodup ∧
    [1, 3, 11, 2, 5].map (build (fun p => p % 2 == 1) [(0, 9), (0, 4)] c).place =
      [some (0, 4, 0), some (0, 4, 1), some (0, 4, 2), some (0, 4, 0), some (0, 9, 0)] := by
  refine ⟨_, rfl, ?_, ?_⟩ <;> decide

/-- **C25**, port placed twice: the file is accepted, the adapter has two entries for the port and
interface number 0 belongs to no port. -/
theorem C25_duplicate_port_violated :
    ∃ c, parse sampleDesign [.port 1 0 4 true, .port 1 0 4 true] = some c ∧
      c.ports (0, 4) = some [1, 1] ∧
      (build (fun p => p % 2 == 1) [(0, 4)] c).place 1 = some (0, 4, 1) := by
  refine ⟨_, rfl, ?_, ?_⟩ <;> decide

/-- **C25**, module lines: a module with an AXI-MM slave and an AXI-MM master cannot be placed by its
module name, the second loop trips over the mark left by the first. -/
theorem C25_aximm_module_line_violated :
    (parse sampleDesign [.module 2 0 4 false]).isNone = true ∧
    (parse sampleDesign [.module 1 0 4 false]).isSome = true := by
  constructor <;> decide

end RadSim.Design
