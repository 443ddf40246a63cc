import Verif.Model.AdaptTorus
import Verif.Lemmas.MinAdapt
import Verif.Lemmas.RoutingTorus

/-! # Lemmas on the adaptive routing of a torus -/

namespace RadSim.Routing.AdaptT

open Router (Hop)
open Grid Worms

theorem dirs_done (k vc : Nat) : ∀ (m n cur dest : Nat) {out : List Hop},
    (out.Pairwise fun a b => a.pri > b.pri) → (∃ x ∈ out, x.pri = 1) → torusDirs k vc m n cur dest out = out
  | 0, _, _, _, _, _, _ => rfl
  | m + 1, n, cur, dest, out, hs, ⟨x, hx, he⟩ => by
    unfold torusDirs
    have : (if cur % k ≠ dest % k then
        addRange out ⟨if 2 * ((dest % k + k - cur % k) % k) < k then 2 * n else 2 * n + 1, vc, vc, 1⟩ else out) = out := by
      split
      · exact addRange_same hs hx he
      · rfl
    rw [this]
    exact dirs_done k vc m _ _ _ hs ⟨x, hx, he⟩

theorem dirs_eq {k vc u v : Nat} {d : Nat} (hne : coord k u d ≠ coord k v d) : ∀ (m n : Nat) {out : List Hop},
    (out.Pairwise fun a b => a.pri > b.pri) → n ≤ d → d < n + m → (∀ d', d' < d → coord k u d' = coord k v d') →
    torusDirs k vc m n (u / k ^ n) (v / k ^ n) out =
      addRange out ⟨if 2 * ((coord k v d + k - coord k u d) % k) < k then 2 * d else 2 * d + 1, vc, vc, 1⟩
  | 0, _, _, _, _, _, _ => by omega
  | m + 1, n, out, hs, h1, h2, h3 => by
    unfold torusDirs
    by_cases e : n = d
    · subst e
      rw [if_pos (show u / k ^ n % k ≠ v / k ^ n % k from hne)]
      rw [dirs_done _ _ _ _ _ _ (addRange_sorted hs) addRange_pri]
      rfl
    · rw [if_neg (show ¬ u / k ^ n % k ≠ v / k ^ n % k from fun h => h (h3 n (by omega))), Nat.div_div_eq_div_mul,
        Nat.div_div_eq_div_mul, ← Nat.pow_succ]
      exact dirs_eq hne m (n + 1) hs (by omega) (by omega) h3

theorem dirs_same {k vc : Nat} : ∀ (m n cur : Nat) {out : List Hop}, torusDirs k vc m n cur cur out = out
  | 0, _, _, _ => rfl
  | m + 1, n, cur, out => by
    unfold torusDirs
    rw [if_neg (fun h => h rfl)]
    exact dirs_same m _ _

variable {s : Shape} {rng : Nat → Nat × Nat}

/-- The direction of the adaptive channel: the one of dimension order, to the left in a tie. -/
def freeDir (s : Shape) (u v : Nat) : Nat := (dorNextTorus s u v (2 * s.n) 0 false).1

theorem freeDir_eq (hk : 0 < s.k) {u v d : Nat} (hu : u < s.nodes) (hv : v < s.nodes) (hf : First s u v d) :
    freeDir s u v = if 2 * ((coord s.k v d + s.k - coord s.k u d) % s.k) < s.k then 2 * d else 2 * d + 1 := by
  rcases torusLoop_spec hk hu hv with ⟨e, -⟩ | ⟨-, d', hf', h⟩
  · exact absurd (by rw [e]) hf.ne
  have hd := hf'.unique hf
  subst hd
  have hdim := hf.dim
  unfold freeDir dorNextTorus
  rw [h]
  simp only [if_pos hdim, if_pos (show 2 * s.n / 2 ≠ d' by omega), Bool.and_false, Bool.or_false, decide_eq_true_eq]
  rfl

/-- The virtual channels of the escape network. -/
def esc2 (rng : Nat → Nat × Nat) (c : Nat) : Nat × Nat := ((rng c).1, (rng c).1 + 1)

theorem avail2 (c : Nat) : available (esc2 rng c) = 1 := by unfold available esc2; dsimp only; omega

/-- The head seen by the escape network. -/
def toEsc (s : Shape) (rng : Nat → Nat × Nat) (h : HeadA) : Head :=
  ⟨h.node, h.inPort, h.pkt,
    if h.node = h.pkt.dest then ⟨2 * s.n, (rng h.pkt.cls).1, (rng h.pkt.cls).1 + 1, h.pkt.ph⟩
    else ⟨(h.outs.getLast?.map Hop.port).getD 0, if h.pkt.ph = 0 then (rng h.pkt.cls).1 else (rng h.pkt.cls).1 + 1,
      if h.pkt.ph = 0 then (rng h.pkt.cls).1 else (rng h.pkt.cls).1 + 1, h.pkt.ph⟩⟩

/-- A packet that came in on a channel that is not one of the escape channels. -/
def Free (s : Shape) (rng : Nat → Nat × Nat) (q : Nat) (f : Pkt) : Prop :=
  (if q = 2 * s.n then (rng f.cls).2 else f.vc) > (rng f.cls).1 + 1

instance (q : Nat) (f : Pkt) : Decidable (Free s rng q f) := inferInstanceAs (Decidable (_ > _))

/-- The output sets. -/
theorem arr (hk : 0 < s.k) {u q : Nat} {f : Pkt} {h : HeadA} (hu : u < s.nodes) (hf : f.dest < s.nodes)
    (ha : ArrivesA s rng u q f h) :
    ∃ rnd, h = ⟨u, q, { f with ph := (dorNextTorus s u f.dest (if Free s rng q f then 2 * s.n else q) f.ph rnd).2 }, h.outs⟩ ∧
      vcOk rng f ∧
      h.outs = if u = f.dest then [⟨2 * s.n, (rng f.cls).1, (rng f.cls).2, 0⟩]
        else (if Free s rng q f then [⟨freeDir s u f.dest, (rng f.cls).1 + 3, (rng f.cls).1 + 3, 1⟩] else []) ++
          [⟨(dorNextTorus s u f.dest (if Free s rng q f then 2 * s.n else q) f.ph rnd).1,
            if h.pkt.ph = 0 then (rng f.cls).1 else (rng f.cls).1 + 1,
            if h.pkt.ph = 0 then (rng f.cls).1 else (rng f.cls).1 + 1, 0⟩] := by
  obtain ⟨rnd, o, ho, rfl⟩ := ha
  unfold minAdaptTorus at ho
  by_cases hv : vcOk rng f
  · rw [if_pos hv] at ho
    dsimp only at ho
    have hF : (decide ((if q = 2 * s.n then (rng f.cls).2 else f.vc) > (rng f.cls).1 + 1) = true) = Free s rng q f := by
      unfold Free; simp
    simp only [hF] at ho
    cases ho
    refine ⟨rnd, rfl, hv, ?_⟩
    dsimp only
    generalize dorNextTorus s u f.dest (if Free s rng q f then 2 * s.n else q) f.ph rnd = x
    by_cases hd : u = f.dest
    · subst hd
      simp only [dirs_same, ite_self, if_true]
      rfl
    · simp only [if_neg hd]
      by_cases hfr : Free s rng q f
      · simp only [if_pos hfr]
        rcases torusLoop_spec hk hu hf with ⟨e, -⟩ | ⟨-, d, hfi, -⟩
        · exact absurd e hd
        have := dirs_eq (k := s.k) (vc := (rng f.cls).1 + 3) hfi.ne s.n 0 (out := []) .nil (Nat.zero_le _)
          (by have := hfi.dim; omega) hfi.before
        rw [Nat.pow_zero, Nat.div_one, Nat.div_one] at this
        rw [this, freeDir_eq hk hu hf hfi]
        rfl
      · simp only [if_neg hfr]
        rfl
  · rw [if_neg hv] at ho; cases ho

/-- Heads under `min_adapt_torus`. -/
structure GoodA (s : Shape) (rng : Nat → Nat × Nat) (h : HeadA) : Prop where
  esc : GoodT s (esc2 rng) (toEsc s rng h)
  home : h.node = h.pkt.dest → h.outs = [⟨2 * s.n, (rng h.pkt.cls).1, (rng h.pkt.cls).2, 0⟩]
  away : h.node ≠ h.pkt.dest → h.outs =
    (if h.outs.length = 2 then [⟨freeDir s h.node h.pkt.dest, (rng h.pkt.cls).1 + 3, (rng h.pkt.cls).1 + 3, 1⟩] else []) ++
      [⟨(toEsc s rng h).out.port, (toEsc s rng h).out.vcBegin, (toEsc s rng h).out.vcEnd, 0⟩]

/-- The escape network at an arrival. -/
theorem arr_esc (hk : 0 < s.k) {u q : Nat} {f : Pkt} {h : HeadA} (hu : u < s.nodes) (hf : f.dest < s.nodes)
    (ha : ArrivesA s rng u q f h) :
    vcOk rng f ∧ h.node = u ∧ (h.inPort = q ∧ h.pkt.vc = f.vc) ∧ h.pkt.dest = f.dest ∧ h.pkt.cls = f.cls ∧ (u ≠ f.dest → (h.outs.length = 2 ↔ Free s rng q f)) ∧
    (h.node = h.pkt.dest → h.outs = [⟨2 * s.n, (rng h.pkt.cls).1, (rng h.pkt.cls).2, 0⟩]) ∧
    (h.node ≠ h.pkt.dest → h.outs =
      (if h.outs.length = 2 then [⟨freeDir s h.node h.pkt.dest, (rng h.pkt.cls).1 + 3, (rng h.pkt.cls).1 + 3, 1⟩] else []) ++
        [⟨(toEsc s rng h).out.port, (toEsc s rng h).out.vcBegin, (toEsc s rng h).out.vcEnd, 0⟩]) ∧
    ∀ vc, (rng f.cls).1 ≤ vc → vc ≤ (rng f.cls).1 + 1 →
      Arrives (dimOrderTorus s (esc2 rng)) u (if Free s rng q f then 2 * s.n else q) { f with vc := vc }
        { toEsc s rng h with inPort := if Free s rng q f then 2 * s.n else q, pkt := { h.pkt with vc := vc } } := by
  obtain ⟨rnd, he, hv, ho⟩ := arr hk hu hf ha
  generalize hx : dorNextTorus s u f.dest (if Free s rng q f then 2 * s.n else q) f.ph rnd = x at he ho
  have e1 : h.node = u := by rw [he]
  have e2 : h.pkt.dest = f.dest := by rw [he]
  have e3 : h.pkt.cls = f.cls := by rw [he]
  have e4 : h.pkt.ph = x.2 := by rw [he]
  have hlen : u ≠ f.dest → (h.outs.length = 2 ↔ Free s rng q f) := by
    intro hne
    rw [ho, if_neg hne]
    by_cases hfr : Free s rng q f
    · simp [hfr]
    · simp [hfr]
  have hlast : u ≠ f.dest → (h.outs.getLast?.map Hop.port).getD 0 = x.1 := by
    intro hne
    rw [ho, if_neg hne, List.getLast?_concat]
    rfl
  refine ⟨hv, e1, ⟨by rw [he], by rw [he]⟩, e2, e3, hlen, ?_, ?_, ?_⟩
  · rw [e1, e2, e3]; intro e; rw [ho, if_pos e]
  · rw [e1, e2, e3]
    intro hne
    have h1 : (toEsc s rng h).out = ⟨x.1, if h.pkt.ph = 0 then (rng f.cls).1 else (rng f.cls).1 + 1,
        if h.pkt.ph = 0 then (rng f.cls).1 else (rng f.cls).1 + 1, h.pkt.ph⟩ := by
      unfold toEsc
      dsimp only
      rw [e1, e2, e3, if_neg hne, hlast hne]
    rw [h1]
    dsimp only
    have := hlen hne
    rw [if_congr this rfl rfl]
    rw [ho, if_neg hne]
  · intro vc hv1 hv2
    refine ⟨rnd, (toEsc s rng h).out, ?_, ?_⟩
    · unfold dimOrderTorus
      rw [if_pos (show vcOk (esc2 rng) { f with vc := vc } from ⟨hv1, hv2⟩)]
      dsimp only
      rw [hx, avail2]
      unfold toEsc
      dsimp only
      rw [e1, e2, e3, e4]
      by_cases hd : u = f.dest
      · rw [if_neg (fun h => h hd), if_pos hd]
        have : x.1 = 2 * s.n := by rw [← hx]; exact torus_home hk hu hf hd _ _ _
        rw [this]
        rfl
      · rw [if_pos hd, if_neg hd, if_pos Nat.one_pos, hlast hd]
        split <;> rfl
    · unfold toEsc
      dsimp only
      rw [e1, e2]
      rw [show h.pkt = { f with ph := x.2 } from by rw [he]]
      simp only [Head.mk.injEq, true_and]
      constructor
      · split <;> rfl
      · trivial

theorem good_of (hk : 0 < s.k) {u q : Nat} {f : Pkt} {h : HeadA} (hu : u < s.nodes) (hf : f.dest < s.nodes)
    (ha : ArrivesA s rng u q f h) (hfr : q = 2 * s.n ∨ Free s rng q f) : GoodA s rng h := by
  obtain ⟨-, -, -, -, -, -, h1, h2, h3⟩ := arr_esc hk hu hf ha
  have := arrivesT_turn hk (f := { f with vc := (rng f.cls).1 }) hu hf (fun d hd => by
    have := hd.dim
    rcases hfr with e | e
    · split <;> omega
    · rw [if_pos e]; omega) (h3 _ (Nat.le_refl _) (by omega))
  exact ⟨⟨this.node, this.dest, this.out⟩, h1, h2⟩

theorem enters (hk : 0 < s.k) {h : HeadA} (he : EntersA s rng h) : GoodA s rng h := by
  obtain ⟨u, f, hu, hf, -, ha⟩ := he
  exact good_of hk hu hf ha (.inl rfl)

theorem takesA_iff (hk : 0 < s.k) {h h' : HeadA} {c : Nat × Nat} (hn : h.node < s.nodes) :
    TakesA s rng h c h' ↔ ∃ o ∈ h.outs, o.port < 2 * s.n ∧ c.1 = 2 * s.n * h.node + o.port ∧ o.vcStart ≤ c.2 ∧ c.2 ≤ o.vcEnd ∧
      ArrivesA s rng (nbr s h.node o.port) (opp o.port) { h.pkt with vc := c.2 } h' := by
  unfold TakesA
  constructor
  · rintro ⟨o, h0, h1, h2, h3, h4, v, q, h5, h6⟩
    rw [h2, receivers_eq hk h1 hn] at h5
    simp only [List.cons.injEq, Prod.mk.injEq, and_true] at h5
    rw [outputChannel_eq] at h2
    exact ⟨o, h0, h1, h2, h3, h4, h5.1 ▸ h5.2 ▸ h6⟩
  · rintro ⟨o, h0, h1, h2, h3, h4, h5⟩
    rw [← outputChannel_eq] at h2
    exact ⟨o, h0, h1, h2, h3, h4, _, _, by rw [h2, receivers_eq hk h1 hn], h5⟩

theorem opp_lt {p n : Nat} (h : p < 2 * n) : opp p < 2 * n := by unfold opp; split <;> omega

/-- The channels of the escape network. -/
theorem esc_vc {h : HeadA} (hne : h.node ≠ h.pkt.dest) :
    (toEsc s rng h).out.vcBegin = (if h.pkt.ph = 0 then (rng h.pkt.cls).1 else (rng h.pkt.cls).1 + 1) ∧
    (toEsc s rng h).out.vcEnd = (toEsc s rng h).out.vcBegin ∧ (toEsc s rng h).out.ph = h.pkt.ph := by
  unfold toEsc
  dsimp only
  rw [if_neg hne]
  exact ⟨rfl, rfl, rfl⟩

/-- What an element of an output set is. -/
theorem mem_outs {h : HeadA} (hg : GoodA s rng h) (hne : h.node ≠ h.pkt.dest) {o : Hop} (ho : o ∈ h.outs) :
    (h.outs.length = 2 ∧ o = ⟨freeDir s h.node h.pkt.dest, (rng h.pkt.cls).1 + 3, (rng h.pkt.cls).1 + 3, 1⟩) ∨
    o = ⟨(toEsc s rng h).out.port, (toEsc s rng h).out.vcBegin, (toEsc s rng h).out.vcEnd, 0⟩ := by
  rw [hg.away hne] at ho
  rcases List.mem_append.1 ho with ho | ho
  · split at ho
    · rename_i hl; exact .inl ⟨hl, List.mem_singleton.1 ho⟩
    · cases ho
  · exact .inr (List.mem_singleton.1 ho)

/-- The last element of an output set is the one for the escape network. -/
theorem esc_mem {h : HeadA} (hg : GoodA s rng h) (hne : h.node ≠ h.pkt.dest) :
    (⟨(toEsc s rng h).out.port, (toEsc s rng h).out.vcBegin, (toEsc s rng h).out.vcEnd, 0⟩ : Hop) ∈ h.outs := by
  rw [hg.away hne]
  exact List.mem_append_right _ (List.mem_singleton_self _)

/-- The directions that are offered. -/
theorem dirs {h : HeadA} (hk : 0 < s.k) (hg : GoodA s rng h) (hne : h.node ≠ h.pkt.dest) {o : Hop} (ho : o ∈ h.outs) :
    o.port < 2 * s.n ∧ ∃ d ph, First s h.node h.pkt.dest d ∧ o.port / 2 = d ∧
      Ring s.k (coord s.k h.node d) (coord s.k h.pkt.dest d) o.port ph := by
  rcases hg.esc.out with ⟨e, -⟩ | ⟨-, -, -, -, ⟨d, hfi, hp, hr⟩, -, -⟩
  · exact absurd e hne
  have hdim := hfi.dim
  rcases mem_outs hg hne ho with ⟨-, rfl⟩ | rfl
  · obtain ⟨t1, t2⟩ := torus_turn hk hg.esc.node hg.esc.dest hfi (2 * s.n) (by omega) 0 false
    have t1' : freeDir s h.node h.pkt.dest / 2 = d := t1
    exact ⟨by dsimp only; omega, d, _, hfi, t1, t2⟩
  · exact ⟨by dsimp only; omega, d, _, hfi, hp, hr⟩

/-- Everything about a move. -/
theorem takes (hk : 0 < s.k) {h h' : HeadA} {c : Nat × Nat} (hg : GoodA s rng h) (ht : TakesA s rng h c h') :
    GoodA s rng h' ∧ h.node ≠ h.pkt.dest ∧ h'.pkt.dest = h.pkt.dest ∧ h'.pkt.cls = h.pkt.cls ∧
      (rng h.pkt.cls).1 ≤ c.2 ∧ c.2 ≤ (rng h.pkt.cls).2 ∧
      torusDist s.k s.n h.node h.pkt.dest = torusDist s.k s.n h'.node h'.pkt.dest + 1 ∧
      ((c.2 = (rng h.pkt.cls).1 + 3 ∧ h.outs.length = 2) ∨
        (Takes s (dimOrderTorus s (esc2 rng)) (toEsc s rng h) c (toEsc s rng h') ∧ h'.outs.length ≠ 2)) := by
  obtain ⟨o, ho, h1, h2, h3, h4, h5⟩ := (takesA_iff hk hg.esc.node).1 ht
  have hne : h.node ≠ h.pkt.dest := by
    intro e
    rw [hg.home e] at ho
    cases List.mem_singleton.1 ho
    exact Nat.lt_irrefl _ h1
  obtain ⟨-, d, ph, hfi, hpd, hr⟩ := dirs hk hg hne ho
  have hu : nbr s h.node o.port < s.nodes := nbr_lt hk h1 hg.esc.node
  have hd : h.pkt.dest < s.nodes := hg.esc.dest
  obtain ⟨hv, a1, ⟨a2, a3⟩, a4, a5, a6, a7, a8, a9⟩ := arr_esc (f := { h.pkt with vc := c.2 }) hk hu hd h5
  have hq : opp o.port ≠ 2 * s.n := by have := opp_lt h1; omega
  have hfree : Free s rng (opp o.port) { h.pkt with vc := c.2 } ↔ c.2 > (rng h.pkt.cls).1 + 1 := by
    unfold Free; rw [if_neg hq]
  have hdist : torusDist s.k s.n h.node h.pkt.dest = torusDist s.k s.n h'.node h'.pkt.dest + 1 := by
    obtain ⟨n1, n2, n3⟩ := nbr_coord hk h.node o.port
    rw [hpd] at n1 n2 n3
    rw [a1, show h'.pkt.dest = h.pkt.dest from a4]
    refine sum_step s.n d hfi.dim _ _ ?_ fun x hx => by rw [n1 x hx]
    exact ring_gap hr (coord_lt hk _ _) (coord_lt hk _ _) n2 n3
  rcases mem_outs hg hne ho with ⟨hl, rfl⟩ | rfl
  · dsimp only at h3 h4
    have hc : c.2 = (rng h.pkt.cls).1 + 3 := by omega
    exact ⟨good_of (f := { h.pkt with vc := c.2 }) hk hu hd h5 (.inr (hfree.2 (by omega))), hne, a4, a5, hv.1, hv.2, hdist, .inl ⟨hc, hl⟩⟩
  · dsimp only at h1 h2 h3 h4 hu h5 a1 a2 a6 a9 hfree
    obtain ⟨v1, v2, -⟩ := esc_vc (s := s) (rng := rng) hne
    have hc : (rng h.pkt.cls).1 ≤ c.2 ∧ c.2 ≤ (rng h.pkt.cls).1 + 1 := by
      rw [v2, v1] at h4; rw [v1] at h3
      split at h3 <;> rename_i hp <;> simp only [hp, if_true, if_false] at h4 <;> omega
    have hnf : ¬ Free s rng (opp (toEsc s rng h).out.port) { h.pkt with vc := c.2 } := by rw [hfree]; omega
    have hT : Takes s (dimOrderTorus s (esc2 rng)) (toEsc s rng h) c (toEsc s rng h') := by
      refine (takes_iff hk hg.esc.node).2 ⟨h1, h2, h3, h4, ?_⟩
      have := a9 c.2 hc.1 hc.2
      rw [if_neg hnf] at this
      have e : ({ toEsc s rng h' with inPort := opp (toEsc s rng h).out.port, pkt := { h'.pkt with vc := c.2 } } : Head) =
          toEsc s rng h' := by
        show _ = (⟨h'.node, h'.inPort, { h'.pkt with vc := h'.pkt.vc }, (toEsc s rng h').out⟩ : Head)
        rw [a2, a3]
        rfl
      rw [e] at this
      exact this
    have hl' : h'.outs.length ≠ 2 := by
      by_cases e : nbr s h.node (toEsc s rng h).out.port = h.pkt.dest
      · rw [a7 (by rw [a1, a4]; exact e)]; simp
      · rw [ne_eq, a6 e]; exact hnf
    exact ⟨⟨(takesT hk hg.esc hT).1, a7, a8⟩, hne, a4, a5, hv.1, hv.2, hdist, .inr ⟨hT, hl'⟩⟩

/-- The assertions of the routing function hold at the next router. -/
theorem can (hk : 0 < s.k) {h : HeadA} (hv : (rng h.pkt.cls).1 + 3 ≤ (rng h.pkt.cls).2) (hg : GoodA s rng h)
    (hne : h.node ≠ h.pkt.dest) {o : Hop} (ho : o ∈ h.outs) {vc : Nat} (h1 : o.vcStart ≤ vc) (h2 : vc ≤ o.vcEnd) :
    ∃ h', TakesA s rng h (2 * s.n * h.node + o.port, vc) h' := by
  have hp := (dirs hk hg hne ho).1
  have hvc : vcOk rng { h.pkt with vc := vc } := by
    unfold vcOk
    dsimp only
    rcases mem_outs hg hne ho with ⟨-, rfl⟩ | rfl
    · dsimp only at h1 h2; omega
    · obtain ⟨v1, v2, -⟩ := esc_vc (s := s) (rng := rng) hne
      dsimp only at h1 h2
      rw [v2, v1] at h2; rw [v1] at h1
      split at h1 <;> rename_i hp <;> simp only [hp, if_true, if_false] at h2 <;> omega
  have : ∃ h', ArrivesA s rng (nbr s h.node o.port) (opp o.port) { h.pkt with vc := vc } h' := by
    have : ∃ o', minAdaptTorus s rng (nbr s h.node o.port) { h.pkt with vc := vc } (opp o.port) false = some o' := by
      unfold minAdaptTorus
      simp only [if_pos hvc]
      exact ⟨_, rfl⟩
    obtain ⟨o', ho'⟩ := this
    exact ⟨_, false, o', ho', rfl⟩
  obtain ⟨h', ha⟩ := this
  exact ⟨h', (takesA_iff hk hg.esc.node).2 ⟨o, ho, hp, rfl, h1, h2, ha⟩⟩

theorem home_iff {h : HeadA} (hk : 0 < s.k) (hg : GoodA s rng h) : HomeA s h ↔ h.node = h.pkt.dest := by
  constructor
  · rintro ⟨o, ho, hp⟩
    refine Classical.byContradiction fun hne => ?_
    have := (dirs hk hg hne ho).1
    omega
  · intro e
    exact ⟨_, by rw [hg.home e]; exact List.mem_singleton_self _, rfl⟩

/-- Heads on free channels come before all on the escape network. -/
def rank (s : Shape) (rng : Nat → Nat × Nat) (h : HeadA) : Nat :=
  if h.outs.length = 2 then 0 else 1 + rankT s (toEsc s rng h)

theorem rank_le (hk : 0 < s.k) {h h' : HeadA} {c : Nat × Nat} (hg : GoodA s rng h) (ht : TakesA s rng h c h') :
    rank s rng h ≤ rank s rng h' := by
  obtain ⟨-, -, -, -, -, -, -, ⟨-, hl⟩ | ⟨hT, hl⟩⟩ := takes hk hg ht
  · unfold rank; rw [if_pos hl]; exact Nat.zero_le _
  · have := rankT_step hk hg.esc hT
    unfold rank
    rw [if_neg hl]
    split <;> omega

theorem noDeadlockA (hk : 0 < s.k) (hs : Separate rng) (hv : ∀ c, (rng c).1 + 3 ≤ (rng c).2) :
    NoDeadlock (EntersA s rng) (TakesA s rng) (HomeA s) := by
  refine noDeadlock (Good := GoodA s rng) (rank s rng) (fun h => enters hk) (fun h c h' hg ht => (takes hk hg ht).1)
    (fun h c h' hg ht => rank_le hk hg ht) ?_
  intro h hg hh
  have hne : h.node ≠ h.pkt.dest := fun e => hh ((home_iff hk hg).2 e)
  obtain ⟨v1, v2, v3⟩ := esc_vc (s := s) (rng := rng) hne
  obtain ⟨h', ht⟩ := can hk (hv _) hg hne (esc_mem hg hne) (vc := (toEsc s rng h).out.vcBegin) (Nat.le_refl _)
    (by dsimp only; omega)
  dsimp only at ht
  refine ⟨_, h', ht, fun t t' gt tt => ?_⟩
  have hc : (rng h.pkt.cls).1 ≤ (toEsc s rng h).out.vcBegin ∧ (toEsc s rng h).out.vcBegin ≤ (rng h.pkt.cls).1 + 1 := by
    rw [v1]; split <;> omega
  obtain ⟨-, tne, -, -, b1, b2, -, tcase⟩ := takes hk gt tt
  dsimp only at b1 b2 tcase
  have hcls : rng t.pkt.cls = rng h.pkt.cls := same_class hs b1 b2 hc.1 (by have := hv h.pkt.cls; omega)
  rcases tcase with ⟨e, -⟩ | ⟨hT, hl⟩
  · rw [hcls] at e; omega
  have hlt := rankT_step hk gt.esc hT
  have hr' : rank s rng t' = 1 + rankT s (toEsc s rng t') := by unfold rank; rw [if_neg hl]
  rw [hr']
  unfold rank
  split
  · omega
  obtain ⟨w1, w2, w3⟩ := esc_vc (s := s) (rng := rng) tne
  obtain ⟨p1, p2, p3, p4, -⟩ := (takes_iff hk gt.esc.node).1 hT
  dsimp only at p2 p3 p4
  rcases hg.esc.out with ⟨e, -⟩ | ⟨-, -, -, -, ⟨d, hfi, hpd, hr⟩, -, -⟩
  · exact absurd e hne
  rcases gt.esc.out with ⟨e, -⟩ | ⟨-, -, -, -, ⟨d', -, -, hrt⟩, -, -⟩
  · exact absurd e tne
  have hp : (toEsc s rng h).out.port < 2 * s.n := by have := hfi.dim; omega
  obtain ⟨e1, e2⟩ := enc_inj p1 hp p2.symm
  have hph : (toEsc s rng t).out.ph = (toEsc s rng h).out.ph := by
    have q1 := ring_ph hr
    have q2 := ring_ph hrt
    rw [hcls] at w1
    rw [w3] at q2 ⊢
    rw [v3] at q1 ⊢
    rw [w2] at p4
    have : (toEsc s rng t).out.vcBegin = (toEsc s rng h).out.vcBegin := by omega
    rw [w1, v1] at this
    by_cases x : t.pkt.ph = 0 <;> by_cases y : h.pkt.ph = 0 <;> simp only [x, y, if_true, if_false] at this <;> omega
  have e : rankT s (toEsc s rng t) = rankT s (toEsc s rng h) := by
    unfold rankT
    rw [e2, hph, show (toEsc s rng t).node = (toEsc s rng h).node from e1]
  omega

end RadSim.Routing.AdaptT
