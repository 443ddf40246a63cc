import Verif.Lemmas.Fly
import Verif.Spec.FatTree
import Verif.Model.FatTree

/-! # The fat tree: wiring and way -/

namespace RadSim.Routing.Tree

open Worms Fly

variable {s : Shape} {rng : Nat → Nat × Nat} {ups : Nat → Prop}

theorem chans_eq (hn : 0 < s.n) : treeChans s = s.nodes := by
  rw [nodes_eq hn, Nat.mul_comm]; rfl

theorem out_down (hn : 0 < s.n) {t a p : Nat} (hp : p < s.k) : treeOut s t a p = flyOut s (2 * t) a p := by
  unfold treeOut flyOut
  rw [if_pos hp, chans_eq hn, ← Nat.mul_assoc, Nat.mul_comm t 2]

theorem up_base (hn : 0 < s.n) {t : Nat} : (t + 1) * (2 * treeChans s) - treeChans s = (2 * t + 1) * s.nodes := by
  rw [chans_eq hn, ← Nat.mul_assoc]
  have : (t + 1) * 2 * s.nodes = (2 * t + 1) * s.nodes + s.nodes := by
    rw [show (t + 1) * 2 = (2 * t + 1) + 1 by omega, Nat.add_mul (2 * t + 1) 1, Nat.one_mul]
  omega

theorem out_up (hn : 0 < s.n) {t a p : Nat} : treeOut s (t + 1) a (s.k + p) = flyOut s (2 * t + 1) a p := by
  unfold treeOut flyOut
  rw [if_neg (by omega), up_base hn, Nat.add_sub_cancel_left]

theorem link_eq {B K a p : Nat} :
    a / (B * K) * (B * K * K) + p * B * K + a % (B * K) % B * K + a % (B * K) / B = put B K a p * K + a / B % K := by
  rw [Nat.mod_mul_right_mod, Nat.mod_mul_right_div_self, put_eq, ← Nat.div_div_eq_div_mul]
  have : a / B / K * (B * K * K) = a / B / K * K * B * K := by
    rw [Nat.mul_comm B K, ← Nat.mul_assoc, ← Nat.mul_assoc]
  rw [this, Nat.add_mul, Nat.add_mul]

theorem hood_eq {t : Nat} (ht : t + 1 < s.n) : s.k ^ (s.n - 1 - t) = weight s (t + 1) * s.k := by
  unfold weight; rw [← Nat.pow_succ]; congr 1; omega

theorem branch_eq (t : Nat) : s.k ^ (s.n - 1 - t) = weight s t := by unfold weight; congr 1; omega

theorem in_below (hn : 0 < s.n) {t a q : Nat} (ht : t + 1 < s.n) :
    treeInBelow s t a q = flyOut s (2 * t + 1) (put (weight s (t + 1)) s.k a q) (a / weight s (t + 1) % s.k) := by
  unfold treeInBelow flyOut
  dsimp only
  rw [up_base hn, hood_eq ht, branch_eq, Nat.add_assoc ((2 * t + 1) * s.nodes) (put _ _ _ _ * s.k), ← link_eq]
  omega

theorem in_above (hn : 0 < s.n) {t a q : Nat} (ht : t + 1 < s.n) :
    treeInAbove s (t + 1) a q = flyOut s (2 * t) (put (weight s (t + 1)) s.k a q) (a / weight s (t + 1) % s.k) := by
  unfold treeInAbove flyOut
  dsimp only
  rw [Nat.add_sub_cancel, hood_eq ht, branch_eq, Nat.add_assoc (2 * t * s.nodes) (put _ _ _ _ * s.k), ← link_eq,
    chans_eq hn, ← Nat.mul_assoc t 2, Nat.mul_comm t 2]
  omega

/-- Router at a level and a position. -/
def at_ (s : Shape) (t a : Nat) : Nat := perStage s * t + a

theorem at_spec (hk : 0 < s.k) {t a : Nat} (ht : t < s.n) (ha : a < perStage s) :
    at_ s t a < s.n * perStage s ∧ at_ s t a / perStage s = t ∧ at_ s t a % perStage s = a := by
  have hP := per_pos hk
  unfold at_
  refine ⟨?_, ?_, ?_⟩
  · have h2 : (t + 1) * perStage s ≤ s.n * perStage s := Nat.mul_le_mul_right _ (by omega)
    rw [Nat.mul_comm (perStage s)]
    rw [Nat.add_mul, Nat.one_mul] at h2
    exact Nat.lt_of_lt_of_le (Nat.add_lt_add_left ha _) h2
  · rw [Nat.mul_add_div hP, Nat.div_eq_of_lt ha, Nat.add_zero]
  · rw [Nat.mul_add_mod, Nat.mod_eq_of_lt ha]

theorem at_self (v : Nat) : at_ s (v / perStage s) (v % perStage s) = v := Nat.div_add_mod v _

theorem receivers_one {c v q : Nat} (hv : v < s.n * perStage s) (hq : q < 2 * s.k)
    (h : ∀ v' q', v' < s.n * perStage s → q' < 2 * s.k →
      (treeReads s (v' / perStage s) (v' % perStage s) q' c ↔ v' = v ∧ q' = q)) :
    treeReceivers s c = [(v, q)] := by
  unfold treeReceivers
  refine flatMap_unique _ v _ _ List.nodup_range (List.mem_range.mpr hv) ?_ ?_
  · have : (List.range (2 * s.k)).filter (fun port => decide (treeReads s (v / perStage s) (v % perStage s) port c)) = [q] := by
      refine filter_unique _ _ _ List.nodup_range (List.mem_range.mpr hq) fun x hx => ?_
      rw [decide_eq_true_iff, h v x hv (List.mem_range.mp hx)]
      simp
    rw [this]; rfl
  · intro v' hv' hne
    have : (List.range (2 * s.k)).filter (fun port => decide (treeReads s (v' / perStage s) (v' % perStage s) port c)) = [] := by
      rw [List.filter_eq_nil_iff]
      intro x hx h'
      rw [decide_eq_true_iff, h v' x (List.mem_range.mp hv') (List.mem_range.mp hx)] at h'
      exact hne h'.1
    rw [this]; rfl

/-- The reader of a channel upwards. -/
theorem receivers_up (hk : 0 < s.k) (hn : 0 < s.n) {t a p : Nat} (ht : t + 1 < s.n) (ha : a < perStage s) (hp : p < s.k) :
    treeReceivers s (treeOut s (t + 1) a (s.k + p)) =
      [(at_ s t (put (weight s (t + 1)) s.k a p), a / weight s (t + 1) % s.k)] := by
  have hw := weight_pos hk (t + 1)
  have hpp := put_per hk (Nat.succ_pos t) ht ha hp
  have hd : a / weight s (t + 1) % s.k < s.k := Nat.mod_lt _ hk
  obtain ⟨e0, e1, e2⟩ := at_spec hk (Nat.lt_of_succ_lt ht) hpp
  refine receivers_one e0 (by omega) fun v q hv hq => ?_
  have hvm := Nat.mod_lt v (per_pos hk)
  have hvd : v / perStage s < s.n := (Nat.div_lt_iff_lt_mul (per_pos hk)).2 hv
  rw [out_up hn]
  constructor
  · intro h
    unfold treeReads at h
    split at h
    · rename_i hqk
      rw [in_below hn (by omega)] at h
      obtain ⟨f1, f2, f3⟩ := flyOut_inj hn (put_per hk (Nat.succ_pos _) (by omega) hvm hqk) (Nat.mod_lt _ hk) ha hp h.2
      have et : v / perStage s = t := by omega
      rw [et] at f2 f3
      refine ⟨?_, ?_⟩
      · rw [← f2, ← f3, put_put hw hqk, ← et, at_self]
      · rw [← f2, put_digit hw hqk]
    · obtain ⟨t', et⟩ := Nat.exists_eq_succ_of_ne_zero h.1
      rw [Nat.succ_eq_add_one] at et
      rw [et, in_above hn (by omega)] at h
      obtain ⟨f1, -, -⟩ := flyOut_inj hn (put_per hk (Nat.succ_pos _) (by omega) hvm (by omega)) (Nat.mod_lt _ hk) ha hp h.2
      omega
  · rintro ⟨rfl, rfl⟩
    unfold treeReads
    rw [if_pos hd, e1, e2, in_below hn ht, put_put hw hp, put_digit hw hp]
    exact ⟨by omega, rfl⟩

/-- The reader of a channel downwards. -/
theorem receivers_down (hk : 0 < s.k) (hn : 0 < s.n) {t a p : Nat} (ht : t + 1 < s.n) (ha : a < perStage s) (hp : p < s.k) :
    treeReceivers s (treeOut s t a p) =
      [(at_ s (t + 1) (put (weight s (t + 1)) s.k a p), s.k + a / weight s (t + 1) % s.k)] := by
  have hw := weight_pos hk (t + 1)
  have hpp := put_per hk (Nat.succ_pos t) ht ha hp
  have hd : a / weight s (t + 1) % s.k < s.k := Nat.mod_lt _ hk
  obtain ⟨e0, e1, e2⟩ := at_spec hk ht hpp
  refine receivers_one e0 (by omega) fun v q hv hq => ?_
  have hvm := Nat.mod_lt v (per_pos hk)
  have hvd : v / perStage s < s.n := (Nat.div_lt_iff_lt_mul (per_pos hk)).2 hv
  rw [out_down hn hp]
  constructor
  · intro h
    unfold treeReads at h
    split at h
    · rename_i hqk
      rw [in_below hn (by omega)] at h
      obtain ⟨f1, -, -⟩ := flyOut_inj hn (put_per hk (Nat.succ_pos _) (by omega) hvm hqk) (Nat.mod_lt _ hk) ha hp h.2
      omega
    · obtain ⟨t', et⟩ := Nat.exists_eq_succ_of_ne_zero h.1
      rw [Nat.succ_eq_add_one] at et
      rw [et, in_above hn (by omega)] at h
      obtain ⟨f1, f2, f3⟩ := flyOut_inj hn (put_per hk (Nat.succ_pos _) (by omega) hvm (by omega)) (Nat.mod_lt _ hk) ha hp h.2
      have et' : t' = t := by omega
      subst et'
      refine ⟨?_, ?_⟩
      · rw [← f2, ← f3, put_put hw (by omega), ← et, at_self]
      · rw [← f2, put_digit hw (by omega)]; omega
  · rintro ⟨rfl, rfl⟩
    unfold treeReads
    rw [if_neg (by omega), e1, e2, Nat.add_sub_cancel_left, in_above hn ht, put_put hw hp, put_digit hw hp]
    exact ⟨by omega, rfl⟩

/-- The draws are ports. -/
def Ports (s : Shape) (ups : Nat → Prop) : Prop := (∀ p, ups p → p < s.k) ∧ ∃ p, ups p

theorem ports (hk : 0 < s.k) (h : ups = ncaUp s ∨ ups = ancaUp s) : Ports s ups := by
  have hm : ∀ d, d % (s.k - 1 + 1) < s.k := fun d => by
    rw [Nat.sub_add_cancel hk]; exact Nat.mod_lt _ hk
  rcases h with rfl | rfl
  · exact ⟨fun p ⟨d, e⟩ => e ▸ hm d, _, 0, rfl⟩
  · refine ⟨fun p ⟨u, d1, d2, e⟩ => ?_, _, fun _ => 0, 0, 0, rfl⟩
    rw [e]; split <;> exact hm _

/-- A subtree covers the terminals with its high digits. -/
theorem covers {K d a : Nat} (hK : 0 < K) : (d < (a + 1) * K ∧ a * K ≤ d) ↔ a = d / K := by
  constructor
  · rintro ⟨h1, h2⟩
    exact (Nat.div_eq_of_lt_le h2 h1).symm
  · rintro rfl
    exact ⟨by rw [Nat.add_mul, Nat.one_mul]; exact Nat.lt_div_mul_add hK, Nat.div_mul_le_self _ _⟩

/-- `Nearest` at the shape. -/
def Turn (s : Shape) (C D A : Nat) : Prop := Nearest s.k s.n C D A

/-- Where a packet is after `m` moves. -/
inductive Phase (s : Shape) (C D : Nat) (h : Head) (t m : Nat) : Prop where
  | up (high : h.node % perStage s / weight s t = C / s.k ^ (s.n - t)) (ne : ∀ B, t ≤ B → B < s.n → C / s.k ^ (s.n - B) ≠ D / s.k ^ (s.n - B))
      (m_eq : m + t + 1 = s.n) (p : Nat) (lt : p < s.k) (port : h.out.port = s.k + p)
  | down (high : h.node % perStage s / weight s t = D / s.k ^ (s.n - t)) (A : Nat) (turn : Turn s C D A) (le : A ≤ t)
      (m_eq : m + 2 * A + 1 = s.n + t) (port : h.out.port = D / weight s t % s.k)

structure Good (s : Shape) (rng : Nat → Nat × Nat) (C D t m : Nat) (h : Head) : Prop where
  lt : t < s.n
  node : h.node / perStage s = t
  dest : h.pkt.dest = D
  vcs : h.out.vcBegin = (rng h.pkt.cls).1 ∧ h.out.vcEnd = (rng h.pkt.cls).2
  any : h.out.vcBegin ≤ h.out.vcEnd
  phase : Phase s C D h t m

/-- The decision below the common subtree and inside it. -/
theorem route (hk : 0 < s.k) {up v q t : Nat} {f : Pkt} (hv : v / perStage s = t) (ht : t < s.n) (hc : vcOk rng f) :
    fatTree s rng up v f q =
      if v % perStage s / weight s t = f.dest / s.k ^ (s.n - t) then
        some ⟨f.dest / weight s t % s.k, (rng f.cls).1, (rng f.cls).2, f.ph⟩
      else if q < s.k then some ⟨s.k + up, (rng f.cls).1, (rng f.cls).2, f.ph⟩ else none := by
  have hv' : v / s.k ^ (s.n - 1) = t := hv
  have hK : 0 < s.k ^ (s.n - t) := Nat.pow_pos hk
  unfold fatTree
  rw [if_pos hc]
  dsimp only
  rw [hv']
  simp only [covers hK]
  show (if v % perStage s / weight s t = _ then _ else _) = _
  split
  · rename_i he
    have he' : v % s.k ^ (s.n - 1) / s.k ^ (s.n - t - 1) = f.dest / s.k ^ (s.n - t) := he
    rw [he']
    split
    · rename_i e
      have : weight s t = 1 := by unfold weight; rw [e, show s.n - (s.n - 1) - 1 = 0 by omega, Nat.pow_zero]
      rw [this, Nat.div_one]
    · have e1 : s.k ^ (s.n - (t + 1)) = weight s t := by unfold weight; congr 1
      have e2 : s.k ^ (s.n - t) = weight s t * s.k := by unfold weight; rw [← Nat.pow_succ]; congr 1; omega
      have e3 : f.dest - f.dest / s.k ^ (s.n - t) * s.k ^ (s.n - t) = f.dest % s.k ^ (s.n - t) := by
        rw [Nat.mod_eq_sub_mul_div, Nat.mul_comm]
      rw [e1, e3, e2, Nat.mod_mul_right_div_self]
  · rfl

/-- Arriving on the way up. -/
theorem arrives_up (hk : 0 < s.k) (hu : Ports s ups) {C v q t m : Nat} {f : Pkt} {h : Head} (hv : v / perStage s = t)
    (ht : t < s.n) (hh : v % perStage s / weight s t = C / s.k ^ (s.n - t)) (hm : m + t + 1 = s.n)
    (hne : ∀ B, t < B → B < s.n → C / s.k ^ (s.n - B) ≠ f.dest / s.k ^ (s.n - B))
    (ha : TreeArrives s rng ups v q f h) : Good s rng C f.dest t m h := by
  obtain ⟨up, o, h1, h2, rfl⟩ := ha
  by_cases hc : vcOk rng f
  · rw [route hk hv ht hc] at h2
    split at h2
    · rename_i he
      cases h2
      exact ⟨ht, hv, rfl, ⟨rfl, rfl⟩, Nat.le_trans hc.1 hc.2,
        .down he t ⟨ht, by rw [← hh, he], hne⟩ (Nat.le_refl _) (by omega) rfl⟩
    · rename_i he
      split at h2
      · cases h2
        refine ⟨ht, hv, rfl, ⟨rfl, rfl⟩, Nat.le_trans hc.1 hc.2, .up hh (fun B hB hB' => ?_) hm up (hu.1 up h1) rfl⟩
        rcases Nat.eq_or_lt_of_le hB with rfl | hlt
        · rw [← hh]; exact he
        · exact hne B hlt hB'
      · cases h2
  · unfold fatTree at h2; rw [if_neg hc] at h2; cases h2

/-- Arriving on the way down. -/
theorem arrives_down (hk : 0 < s.k) {C v q t m A : Nat} {f : Pkt} {h : Head} (hv : v / perStage s = t)
    (ht : t < s.n) (hh : v % perStage s / weight s t = f.dest / s.k ^ (s.n - t)) (hm : m + 2 * A + 1 = s.n + t)
    (hA : Turn s C f.dest A) (hle : A ≤ t) (ha : TreeArrives s rng ups v q f h) : Good s rng C f.dest t m h ∧ h.out.port < s.k := by
  obtain ⟨up, o, h1, h2, rfl⟩ := ha
  by_cases hc : vcOk rng f
  · rw [route hk hv ht hc, if_pos hh] at h2
    cases h2
    exact ⟨⟨ht, hv, rfl, ⟨rfl, rfl⟩, Nat.le_trans hc.1 hc.2, .down hh A hA hle hm rfl⟩, Nat.mod_lt _ hk⟩
  · unfold fatTree at h2; rw [if_neg hc] at h2; cases h2

theorem enters (hk : 0 < s.k) (hn : 0 < s.n) (hu : Ports s ups) {c : Nat} {h : Head} (he : TreeEnters s rng ups c h) :
    Good s rng c h.pkt.dest (s.n - 1) 0 h := by
  obtain ⟨f, hc, hf, ha⟩ := he
  have hcd : c / s.k < perStage s := (Nat.div_lt_iff_lt_mul hk).2 (by rw [← nodes_eq hn]; exact hc)
  obtain ⟨-, e1, e2⟩ := at_spec hk (Nat.sub_lt hn Nat.one_pos) hcd
  rw [Nat.mul_comm] at ha
  have hg := arrives_up (C := c) (m := 0) hk hu e1 (Nat.sub_lt hn Nat.one_pos) (by
    rw [e2]
    unfold weight
    rw [show s.n - (s.n - 1) - 1 = 0 by omega, show s.n - (s.n - 1) = 1 by omega, Nat.pow_zero, Nat.div_one, Nat.pow_one])
    (by omega) (fun B h1 h2 => by omega) ha
  rw [hg.dest]; exact hg

/-- Low digits do not matter. -/
theorem div_put_up {t a p : Nat} (hk : 0 < s.k) (ht : t + 1 < s.n) (hp : p < s.k) :
    put (weight s (t + 1)) s.k a p / weight s t = a / weight s (t + 1) / s.k := by
  have : weight s t = weight s (t + 1) * s.k := by unfold weight; rw [← Nat.pow_succ]; congr 1; omega
  rw [this, ← Nat.div_div_eq_div_mul, put_high (weight_pos hk _) hp]

theorem cover_step {t : Nat} (ht : t + 1 < s.n) : s.k ^ (s.n - t) = s.k ^ (s.n - (t + 1)) * s.k := by
  rw [← Nat.pow_succ]; congr 1; omega

theorem cover_weight (t : Nat) : s.k ^ (s.n - (t + 1)) = weight s t := by unfold weight; congr 1

/-- The link of a head and its reader. -/
theorem link (hk : 0 < s.k) (hn : 0 < s.n) {C D t m : Nat} {h : Head} (hg : Good s rng C D t m h)
    (hl : treeLinked s t h.out.port) :
    ∃ v q t', treeReceivers s (treeOut s t (h.node % perStage s) h.out.port) = [(v, q)] ∧ v / perStage s = t' ∧ t' < s.n ∧
      ((s.k ≤ h.out.port ∧ t = t' + 1 ∧ v % perStage s / weight s t' = C / s.k ^ (s.n - t') ∧ q < s.k ∧ m + 1 + t' + 1 = s.n ∧
        ∀ B, t' < B → B < s.n → C / s.k ^ (s.n - B) ≠ D / s.k ^ (s.n - B)) ∨
      (h.out.port < s.k ∧ t' = t + 1 ∧ v % perStage s / weight s t' = D / s.k ^ (s.n - t') ∧
        ∃ A, Turn s C D A ∧ A ≤ t ∧ m + 1 + 2 * A + 1 = s.n + t')) := by
  have hm := Nat.mod_lt h.node (per_pos hk)
  rcases hg.phase with ⟨high, ne, m_eq, p, lt, port⟩ | ⟨high, A, turn, le, m_eq, port⟩
  · unfold treeLinked at hl
    rw [port, if_neg (by omega)] at hl
    obtain ⟨t', rfl⟩ := Nat.exists_eq_succ_of_ne_zero hl.1
    have hlt := hg.lt
    rw [Nat.succ_eq_add_one] at *
    have hpp := put_per hk (Nat.succ_pos t') hlt hm lt
    obtain ⟨-, e1, e2⟩ := at_spec hk (Nat.lt_of_succ_lt hlt) hpp
    refine ⟨_, _, t', by rw [port]; exact receivers_up hk hn hlt hm lt, e1, by omega, .inl ⟨by omega, rfl, ?_, Nat.mod_lt _ hk, by omega, ?_⟩⟩
    · rw [e2, div_put_up hk hlt lt, high, cover_step hlt, Nat.div_div_eq_div_mul]
    · exact fun B h1 h2 => ne B h1 h2
  · have hp : h.out.port < s.k := by rw [port]; exact Nat.mod_lt _ hk
    unfold treeLinked at hl
    rw [if_pos hp] at hl
    have hlt : t + 1 < s.n := by omega
    have hpp := put_per hk (Nat.succ_pos t) hlt hm hp
    obtain ⟨-, e1, e2⟩ := at_spec hk hlt hpp
    refine ⟨_, _, t + 1, receivers_down hk hn hlt hm hp, e1, hlt, .inr ⟨hp, rfl, ?_, A, turn, le, by omega⟩⟩
    have ew : weight s t = weight s (t + 1) * s.k := by unfold weight; rw [← Nat.pow_succ]; congr 1; omega
    rw [ew, ← Nat.div_div_eq_div_mul, cover_step hlt, ← Nat.div_div_eq_div_mul] at high
    rw [e2, put_div (weight_pos hk _), high, port, ← cover_weight t, Nat.mul_comm]
    exact Nat.div_add_mod _ _

theorem takes (hk : 0 < s.k) (hn : 0 < s.n) (hu : Ports s ups) {C D t m : Nat} {h h' : Head} {c : Nat × Nat}
    (hg : Good s rng C D t m h) (ht : TreeTakes s rng ups h c h') :
    ∃ t', Good s rng C D t' (m + 1) h' ∧
      ((s.k ≤ h.out.port ∧ t = t' + 1) ∨ (h.out.port < s.k ∧ h'.out.port < s.k ∧ t' = t + 1)) := by
  obtain ⟨h1, h3, h4, h5, v, q, h6, h7⟩ := ht
  rw [hg.node] at h1 h3
  obtain ⟨v', q', t', r1, r2, r3, r4⟩ := link hk hn hg h1
  rw [h3, r1] at h6
  simp only [List.cons.injEq, Prod.mk.injEq, and_true] at h6
  obtain ⟨rfl, rfl⟩ := h6
  have hd : ({ h.pkt with vc := c.2 } : Pkt).dest = D := hg.dest
  rcases r4 with ⟨a0, a1, a2, a3, a4, a5⟩ | ⟨a0, a1, a2, A, a3, a4, a5⟩
  · have := arrives_up (m := m + 1) hk hu r2 r3 a2 (by omega) (by rw [hd]; exact a5) h7
    rw [hd] at this
    exact ⟨t', this, .inl ⟨a0, a1⟩⟩
  · have := arrives_down (m := m + 1) hk r2 r3 (by rw [hd]; exact a2) a5 (by rw [hd]; exact a3) (by omega) h7
    rw [hd] at this
    exact ⟨t', this.1, .inr ⟨a0, this.2, a1⟩⟩

theorem turn_le {C D A : Nat} (h : Turn s C D A) {B : Nat} (h1 : B < s.n) (h2 : C / s.k ^ (s.n - B) = D / s.k ^ (s.n - B)) : B ≤ A :=
  Nat.le_of_not_lt fun hlt => h.2.2 B hlt h1 h2

theorem turn_unique {C D A B : Nat} (h : Turn s C D A) (h' : Turn s C D B) : A = B :=
  Nat.le_antisymm (turn_le h' h.1 h.2.1) (turn_le h h'.1 h'.2.1)

/-- At the top every two terminals are in the same subtree. -/
theorem top_same {C D : Nat} (hC : C < s.nodes) (hD : D < s.nodes) : C / s.k ^ (s.n - 0) = D / s.k ^ (s.n - 0) := by
  rw [Nat.sub_zero, show C / s.k ^ s.n = 0 from Nat.div_eq_of_lt hC, show D / s.k ^ s.n = 0 from Nat.div_eq_of_lt hD]

/-- A head that wants no terminal has a link, and any draw is good at its end. -/
theorem can (hk : 0 < s.k) (hn : 0 < s.n) {C D t m : Nat} {h : Head} (hg : Good s rng C D t m h)
    (hC : C < s.nodes) (hD : D < s.nodes) (hh : s.k ≤ h.out.port ∨ t < s.n - 1) :
    treeLinked s t h.out.port ∧ ∀ vc, h.out.vcBegin ≤ vc → vc ≤ h.out.vcEnd → ∃ v q,
      treeReceivers s (treeOut s t (h.node % perStage s) h.out.port) = [(v, q)] ∧
      ∀ up, ∃ o, fatTree s rng up v { h.pkt with vc := vc } q = some o := by
  have hl : treeLinked s t h.out.port := by
    unfold treeLinked
    rcases hg.phase with ⟨-, ne, -, p, lt, port⟩ | ⟨-, A, turn, le, m_eq, port⟩
    · rw [port, if_neg (by omega)]
      refine ⟨?_, by omega⟩
      rintro rfl
      exact ne 0 (Nat.le_refl _) hn (top_same hC hD)
    · have hp : h.out.port < s.k := by rw [port]; exact Nat.mod_lt _ hk
      rw [if_pos hp]; omega
  refine ⟨hl, fun vc h1 h2 => ?_⟩
  have hv : vcOk rng { h.pkt with vc := vc } := ⟨by rw [← hg.vcs.1]; exact h1, by rw [← hg.vcs.2]; exact h2⟩
  obtain ⟨v', q', t', r1, r2, r3, r4⟩ := link hk hn hg hl
  refine ⟨v', q', r1, fun up => ?_⟩
  rw [route hk r2 r3 hv]
  rcases r4 with ⟨a0, a1, a2, a3, a4, a5⟩ | ⟨a0, a1, a2, A, a3, a4, a5⟩
  · split
    · exact ⟨_, rfl⟩
    · exact ⟨_, rfl⟩
  · rw [if_pos (show _ = h.pkt.dest / _ by rw [hg.dest]; exact a2)]
    exact ⟨_, rfl⟩

theorem can_take (hk : 0 < s.k) (hn : 0 < s.n) (hu : Ports s ups) {C D t m : Nat} {h : Head} (hg : Good s rng C D t m h)
    (hC : C < s.nodes) (hD : D < s.nodes) (hh : s.k ≤ h.out.port ∨ t < s.n - 1) :
    ∃ h', TreeTakes s rng ups h (treeOut s t (h.node % perStage s) h.out.port, h.out.vcBegin) h' := by
  obtain ⟨hl, hc⟩ := can hk hn hg hC hD hh
  obtain ⟨v, q, h1, h2⟩ := hc _ (Nat.le_refl _) hg.any
  obtain ⟨up, hup⟩ := hu.2
  obtain ⟨o, ho⟩ := h2 up
  exact ⟨_, by rw [hg.node]; exact hl, by rw [hg.node], Nat.le_refl _, hg.any, v, q, h1, up, o, hup, ho, rfl⟩

/-- On the last level, going down, the head wants the terminal of its destination. -/
theorem ejects (hk : 0 < s.k) (hn : 0 < s.n) {C D t m : Nat} {h : Head} (hg : Good s rng C D t m h)
    (hh : ¬ (s.k ≤ h.out.port ∨ t < s.n - 1)) : TreeEjects s h D ∧ ∃ A, Turn s C D A ∧ m + 2 * A + 2 = 2 * s.n := by
  have hlt := hg.lt
  have et : t = s.n - 1 := by omega
  rcases hg.phase with ⟨-, ne, -, p, lt, port⟩ | ⟨high, A, turn, le, m_eq, port⟩
  · omega
  · refine ⟨⟨hg.node.trans et, by rw [port]; exact Nat.mod_lt _ hk, ?_⟩, A, turn, by omega⟩
    have ew : weight s t = 1 := by unfold weight; rw [show s.n - t - 1 = 0 by omega, Nat.pow_zero]
    rw [ew, Nat.div_one, show s.n - t = 1 by omega, Nat.pow_one] at high
    rw [ew, Nat.div_one] at port
    rw [high, port, Nat.mul_comm]
    exact (Nat.div_add_mod _ _).symm

theorem moves (hk : 0 < s.k) (hn : 0 < s.n) (hu : Ports s ups) {C D : Nat} : ∀ (l : List ((Nat × Nat) × Head)) (t m : Nat) (h : Head),
    Good s rng C D t m h → Moves (TreeTakes s rng ups) h l → ∃ t', Good s rng C D t' (m + l.length) (last h l)
  | [], t, _, _, hg, _ => ⟨t, hg⟩
  | (c, h') :: l, t, m, h, hg, hm => by
    obtain ⟨t', g, -⟩ := takes hk hn hu hg hm.1
    have := moves hk hn hu l t' (m + 1) h' g hm.2
    rw [show m + (List.length ((c, h') :: l)) = m + 1 + l.length by simp only [List.length_cons]; omega]
    exact this

/-- Position on a way of `2 * (n - 1 - A)` moves. -/
theorem Good.where (hk : 0 < s.k) {C D t m A : Nat} {h : Head} (hg : Good s rng C D t m h) (hA : Turn s C D A) :
    (s.k ≤ h.out.port ∧ m + t + 1 = s.n ∧ A < t) ∨ (h.out.port < s.k ∧ m + 2 * A + 1 = s.n + t ∧ A ≤ t) := by
  rcases hg.phase with ⟨-, ne, hm, p, lt, port⟩ | ⟨high, A', turn, le, m_eq, port⟩
  · refine .inl ⟨by omega, hm, Nat.lt_of_not_le fun hle => ne A hle hA.1 hA.2.1⟩
  · rw [turn_unique turn hA] at m_eq le
    exact .inr ⟨by rw [port]; exact Nat.mod_lt _ hk, m_eq, le⟩

theorem nearest {C D : Nat} (hn : 0 < s.n) (hC : C < s.nodes) (hD : D < s.nodes) : ∃ A, Turn s C D A := by
  have key : ∀ j, j < s.n → (∀ B, s.n - 1 - j < B → B < s.n → C / s.k ^ (s.n - B) ≠ D / s.k ^ (s.n - B)) →
      ∃ A, Turn s C D A := by
    intro j
    induction hi : s.n - 1 - j generalizing j with
    | zero =>
      intro hj h
      exact ⟨0, hn, top_same hC hD, h⟩
    | succ i ih =>
      intro hj h
      by_cases e : C / s.k ^ (s.n - (i + 1)) = D / s.k ^ (s.n - (i + 1))
      · exact ⟨i + 1, by omega, e, h⟩
      · refine ih (j + 1) (by omega) (by omega) fun B h1 h2 => ?_
        rcases Nat.eq_or_lt_of_le (Nat.succ_le_of_lt h1) with rfl | hlt
        · exact e
        · exact h B hlt h2
  exact key 0 hn (fun B h1 h2 => by omega)

/-- A link leaves the digits above it alone. -/
theorem put_above (hk : 0 < s.k) {t M a p : Nat} (ht : t + 1 < s.n) (hM : M ≤ t) (hp : p < s.k) :
    put (weight s (t + 1)) s.k a p / weight s M = a / weight s M := by
  have : weight s M = weight s (t + 1) * s.k * s.k ^ (t - M) := by
    unfold weight; rw [← Nat.pow_succ, ← Nat.pow_add]; congr 1; omega
  rw [this, ← Nat.div_div_eq_div_mul, ← Nat.div_div_eq_div_mul, put_high (weight_pos hk _) hp, Nat.div_div_eq_div_mul,
    Nat.div_div_eq_div_mul, Nat.mul_assoc]

theorem link_levels (hk : 0 < s.k) (hn : 0 < s.n) {v w : Nat} (hv : v < s.n * perStage s) (h : TreeLink s v w) :
    w < s.n * perStage s ∧ (v / perStage s = w / perStage s + 1 ∨ w / perStage s = v / perStage s + 1) ∧
    ∀ M, M ≤ v / perStage s → M ≤ w / perStage s → v % perStage s / weight s M = w % perStage s / weight s M := by
  obtain ⟨port, q, hl, hr⟩ := h
  have hm := Nat.mod_lt v (per_pos hk)
  have hvd : v / perStage s < s.n := (Nat.div_lt_iff_lt_mul (per_pos hk)).2 hv
  unfold treeLinked at hl
  split at hl
  · rename_i hp
    have hlt : v / perStage s + 1 < s.n := by omega
    rw [receivers_down hk hn hlt hm hp] at hr
    simp only [List.cons.injEq, Prod.mk.injEq, and_true] at hr
    obtain ⟨e0, e1, e2⟩ := at_spec hk hlt (put_per hk (Nat.succ_pos _) hlt hm hp)
    rw [← hr.1, e1, e2]
    exact ⟨e0, .inr rfl, fun M h1 _ => (put_above hk hlt h1 hp).symm⟩
  · obtain ⟨t', et⟩ := Nat.exists_eq_succ_of_ne_zero hl.1
    rw [Nat.succ_eq_add_one] at et
    rw [et] at hr hvd
    obtain ⟨p, rfl⟩ : ∃ p, port = s.k + p := ⟨port - s.k, by omega⟩
    rw [receivers_up hk hn hvd hm (by omega)] at hr
    simp only [List.cons.injEq, Prod.mk.injEq, and_true] at hr
    obtain ⟨e0, e1, e2⟩ := at_spec hk (Nat.lt_of_succ_lt hvd) (put_per hk (Nat.succ_pos _) hvd hm (show p < s.k by omega))
    rw [← hr.1, e1, e2, et]
    exact ⟨e0, .inl rfl, fun M _ h2 => (put_above hk hvd h2 (by omega)).symm⟩

/-- A walk rises far enough to change the digits that it changes. -/
theorem walk (hk : 0 < s.k) (hn : 0 < s.n) : ∀ (m v w : Nat), v < s.n * perStage s → TreeWalk s m v w →
    ∃ M, M ≤ v / perStage s ∧ M ≤ w / perStage s ∧ v % perStage s / weight s M = w % perStage s / weight s M ∧
      v / perStage s + w / perStage s ≤ m + 2 * M
  | 0, v, w, _, h => by
    cases h
    exact ⟨v / perStage s, Nat.le_refl _, Nat.le_refl _, rfl, by omega⟩
  | m + 1, v, w, hv, ⟨x, hl, hw⟩ => by
    obtain ⟨hx, h1, h2⟩ := link_levels hk hn hv hl
    obtain ⟨M, g1, g2, g3, g4⟩ := walk hk hn m x w hx hw
    have hxd : x / perStage s < s.n := (Nat.div_lt_iff_lt_mul (per_pos hk)).2 hx
    generalize v / perStage s = tv at *
    generalize x / perStage s = tx at *
    generalize w / perStage s = tw at *
    by_cases hc : M ≤ tv
    · exact ⟨M, hc, g2, (h2 M hc g1).trans g3, by omega⟩
    · refine ⟨tv, Nat.le_refl _, by omega, ?_, by omega⟩
      rw [h2 tv (Nat.le_refl _) (by omega)]
      have e : weight s tv = weight s M * s.k ^ (M - tv) := by
        unfold weight; rw [← Nat.pow_add]; congr 1; omega
      rw [e, ← Nat.div_div_eq_div_mul, ← Nat.div_div_eq_div_mul, g3]

/-- Rank of a head: first the way up, then the way down. -/
def rank (s : Shape) (h : Head) : Nat :=
  if s.k ≤ h.out.port then s.n - 1 - h.node / perStage s else s.n + h.node / perStage s

end RadSim.Routing.Tree
