import Verif.Lemmas.RoutingNet
import Verif.Lemmas.Worms
import Verif.Model.Fly

/-! # The butterfly network: digits and stages -/

namespace RadSim.Routing.Fly

open Worms

/-- `a` with the digit of weight `S` replaced by `p`. -/
def put (S K a p : Nat) : Nat := a - a / S % K * S + p * S

theorem put_eq {S K a p : Nat} : put S K a p = a / S / K * K * S + p * S + a % S := by
  unfold put
  have h1 : a = S * (a / S) + a % S := (Nat.div_add_mod a S).symm
  have h2 : a / S = K * (a / S / K) + a / S % K := (Nat.div_add_mod (a / S) K).symm
  generalize hA : a / S / K = A at *
  generalize hz : a / S % K = z at *
  generalize hr : a % S = r at *
  rw [h2] at h1
  have e : S * (K * A + z) = A * K * S + z * S := by
    rw [Nat.mul_add, Nat.mul_comm K A, Nat.mul_comm S (A * K), Nat.mul_comm S z]
  rw [e] at h1
  omega

theorem put_div {S K a p : Nat} (hS : 0 < S) : put S K a p / S = a / S / K * K + p := by
  rw [put_eq, ← Nat.add_mul, Nat.add_comm, Nat.add_mul_div_right _ _ hS, Nat.div_eq_of_lt (Nat.mod_lt _ hS), Nat.zero_add]

theorem put_mod {S K a p : Nat} : put S K a p % S = a % S := by
  rw [put_eq, ← Nat.add_mul, Nat.add_comm, Nat.add_mul_mod_self_right, Nat.mod_mod]

theorem put_digit {S K a p : Nat} (hS : 0 < S) (hp : p < K) : put S K a p / S % K = p := by
  rw [put_div hS, Nat.add_comm, Nat.add_mul_mod_self_right, Nat.mod_eq_of_lt hp]

theorem put_high {S K a p : Nat} (hS : 0 < S) (hp : p < K) : put S K a p / S / K = a / S / K := by
  have hK : 0 < K := by omega
  rw [put_div hS, Nat.add_comm, Nat.add_mul_div_right _ _ hK, Nat.div_eq_of_lt hp, Nat.zero_add]

/-- Digits of `a` put back. -/
theorem put_put {S K a p : Nat} (hS : 0 < S) (hp : p < K) : put S K (put S K a p) (a / S % K) = a := by
  rw [put_eq, put_high hS hp, put_mod]
  have h1 : a = S * (a / S) + a % S := (Nat.div_add_mod a S).symm
  have h2 : a / S = K * (a / S / K) + a / S % K := (Nat.div_add_mod (a / S) K).symm
  generalize hA : a / S / K = A at *
  generalize hz : a / S % K = z at *
  generalize hr : a % S = r at *
  rw [h2] at h1
  have e : S * (K * A + z) = A * K * S + z * S := by
    rw [Nat.mul_add, Nat.mul_comm K A, Nat.mul_comm S (A * K), Nat.mul_comm S z]
  omega

theorem put_lt {S K a p M : Nat} (hS : 0 < S) (hp : p < K) (ha : a < M * (K * S)) : put S K a p < M * (K * S) := by
  have hK : 0 < K := by omega
  have h1 : a / S / K < M := by
    rw [Nat.div_div_eq_div_mul]
    exact Nat.div_lt_of_lt_mul (by rw [Nat.mul_comm S K, Nat.mul_comm (K * S)]; exact ha)
  have h2 : put S K a p / S / K < M := by rw [put_high hS hp]; exact h1
  rw [Nat.div_div_eq_div_mul, Nat.mul_comm S K] at h2
  rw [Nat.mul_comm]
  exact (Nat.div_lt_iff_lt_mul (Nat.mul_pos hK hS)).1 h2 |> fun h => by rw [Nat.mul_comm] at h; exact h

variable {s : Shape} {rng : Nat → Nat × Nat}

theorem per_pos (hk : 0 < s.k) : 0 < perStage s := Nat.pow_pos hk

theorem nodes_eq (hn : 0 < s.n) : s.nodes = perStage s * s.k := by
  unfold Shape.nodes perStage
  rw [← Nat.pow_succ, Nat.succ_eq_add_one, Nat.sub_add_cancel hn]

/-- Weight of the digit that a stage exchanges. -/
def weight (s : Shape) (stage : Nat) : Nat := s.k ^ (s.n - stage - 1)

theorem weight_pos (hk : 0 < s.k) (t : Nat) : 0 < weight s t := Nat.pow_pos hk

theorem per_weight {t : Nat} (h0 : 0 < t) (ht : t < s.n) : perStage s = s.k ^ (t - 1) * (s.k * weight s t) := by
  unfold perStage weight
  rw [← Nat.pow_succ', ← Nat.pow_add]
  congr 1; omega

theorem flyIn_eq (t a q : Nat) :
    flyIn s t a q = flyOut s (t - 1) (put (weight s t) s.k a q) (a / weight s t % s.k) := rfl

theorem flyOut_inj (hn : 0 < s.n) {t a p t' a' p' : Nat} (ha : a < perStage s) (hp : p < s.k) (ha' : a' < perStage s)
    (hp' : p' < s.k) (h : flyOut s t a p = flyOut s t' a' p') : t = t' ∧ a = a' ∧ p = p' := by
  unfold flyOut at h
  rw [nodes_eq hn] at h
  have e : ∀ t a p, t * (perStage s * s.k) + a * s.k + p = s.k * (perStage s * t + a) + p := by
    intro t a p
    rw [Nat.mul_add, ← Nat.mul_assoc t, Nat.mul_comm s.k (perStage s * t), Nat.mul_comm s.k a, Nat.mul_comm t]
  rw [e, e] at h
  obtain ⟨h1, h2⟩ := enc_inj hp hp' h
  obtain ⟨h3, h4⟩ := enc_inj ha ha' h1
  exact ⟨h3, h4, h2⟩

/-- Where a channel leads. -/
def next (s : Shape) (t a p : Nat) : Nat := perStage s * (t + 1) + put (weight s (t + 1)) s.k a p

theorem put_per (hk : 0 < s.k) {t a p : Nat} (h0 : 0 < t) (ht : t < s.n) (ha : a < perStage s) (hp : p < s.k) :
    put (weight s t) s.k a p < perStage s := by
  rw [per_weight h0 ht] at ha ⊢
  exact put_lt (weight_pos hk t) hp ha

theorem next_lt (hk : 0 < s.k) {t a p : Nat} (ht : t < s.n - 1) (ha : a < perStage s) (hp : p < s.k) :
    next s t a p < s.n * perStage s ∧ next s t a p / perStage s = t + 1 ∧
      next s t a p % perStage s = put (weight s (t + 1)) s.k a p := by
  have h1 := put_per hk (Nat.succ_pos t) (by omega) ha hp
  have hP := per_pos hk
  unfold next
  refine ⟨?_, ?_, ?_⟩
  · have h2 : (t + 1 + 1) * perStage s ≤ s.n * perStage s := Nat.mul_le_mul_right _ (by omega)
    rw [Nat.mul_comm (perStage s)]
    rw [Nat.add_mul, Nat.one_mul] at h2
    exact Nat.lt_of_lt_of_le (Nat.add_lt_add_left h1 _) h2
  · rw [Nat.mul_add_div hP, Nat.div_eq_of_lt h1, Nat.add_zero]
  · rw [Nat.mul_add_mod, Nat.mod_eq_of_lt h1]

theorem reads_iff (hk : 0 < s.k) (hn : 0 < s.n) {t a p v q : Nat} (ht : t < s.n - 1) (ha : a < perStage s) (hp : p < s.k)
    (hv : v < s.n * perStage s) (hq : q < s.k) :
    (v / perStage s ≠ 0 ∧ flyIn s (v / perStage s) (v % perStage s) q = flyOut s t a p) ↔
      v = next s t a p ∧ q = a / weight s (t + 1) % s.k := by
  have hP := per_pos hk
  have hvm := Nat.mod_lt v hP
  have hvd : v / perStage s < s.n := (Nat.div_lt_iff_lt_mul hP).2 hv
  constructor
  · rintro ⟨h0, h⟩
    rw [flyIn_eq] at h
    obtain ⟨e1, e2, e3⟩ := flyOut_inj hn (put_per hk (Nat.pos_of_ne_zero h0) hvd hvm hq) (Nat.mod_lt _ hk) ha hp h
    have et : v / perStage s = t + 1 := by rw [← e1, Nat.sub_add_cancel (Nat.pos_of_ne_zero h0)]
    rw [et] at e2 e3
    have hw := weight_pos hk (t + 1)
    refine ⟨?_, ?_⟩
    · unfold next
      rw [← e2, ← e3, put_put hw hq, ← et]
      exact (Nat.div_add_mod v _).symm
    · rw [← e2, put_digit hw hq]
  · rintro ⟨rfl, rfl⟩
    obtain ⟨-, e1, e2⟩ := next_lt hk ht ha hp
    have hw := weight_pos hk (t + 1)
    rw [flyIn_eq, e1, e2, put_put hw hp, put_digit hw hp]
    exact ⟨by omega, rfl⟩

theorem receivers_eq (hk : 0 < s.k) (hn : 0 < s.n) {t a p : Nat} (ht : t < s.n - 1) (ha : a < perStage s) (hp : p < s.k) :
    flyReceivers s (flyOut s t a p) = [(next s t a p, a / weight s (t + 1) % s.k)] := by
  have hv := (next_lt hk ht ha hp).1
  unfold flyReceivers
  refine flatMap_unique _ (next s t a p) _ _ List.nodup_range (List.mem_range.mpr hv) ?_ ?_
  · have : (List.range s.k).filter (fun port => decide (next s t a p / perStage s ≠ 0 ∧
        flyIn s (next s t a p / perStage s) (next s t a p % perStage s) port = flyOut s t a p)) =
        [a / weight s (t + 1) % s.k] := by
      refine filter_unique _ _ _ List.nodup_range (List.mem_range.mpr (Nat.mod_lt _ hk)) fun x hx => ?_
      rw [decide_eq_true_iff, reads_iff hk hn ht ha hp hv (List.mem_range.mp hx)]
      simp
    rw [this]; rfl
  · intro v hv' hne
    have : (List.range s.k).filter (fun port => decide (v / perStage s ≠ 0 ∧
        flyIn s (v / perStage s) (v % perStage s) port = flyOut s t a p)) = [] := by
      rw [List.filter_eq_nil_iff]
      intro x hx h
      rw [decide_eq_true_iff, reads_iff hk hn ht ha hp (List.mem_range.mp hv') (List.mem_range.mp hx)] at h
      exact hne h.1
    rw [this]; rfl

theorem divs_eq (k : Nat) : ∀ d x, divs k d x = x / k ^ d
  | 0, x => by simp [divs]
  | d + 1, x => by
    rw [divs, divs_eq k d, Nat.div_div_eq_div_mul, Nat.pow_succ']

/-- Stage of a router, as `dest_tag_fly` computes it. -/
theorem stage_eq (hk : 0 < s.k) (hn : 0 < s.n) (v : Nat) : v * s.k / s.nodes = v / perStage s := by
  rw [nodes_eq hn, Nat.mul_div_mul_right _ _ hk]

/-- Heads: a router of stage `t` has the digits of the destination that were set on the way. -/
structure Good (s : Shape) (rng : Nat → Nat × Nat) (D t : Nat) (h : Head) : Prop where
  lt : t < s.n
  node : h.node / perStage s = t
  dest : h.pkt.dest = D
  high : h.node % perStage s / s.k ^ (s.n - 1 - t) = D / s.k ^ (s.n - t)
  port : h.out.port = D / s.k ^ (s.n - 1 - t) % s.k
  vcs : h.out.vcBegin = (rng h.pkt.cls).1 ∧ h.out.vcEnd = (rng h.pkt.cls).2
  some : h.out.vcBegin ≤ h.out.vcEnd

theorem arrives (hk : 0 < s.k) (hn : 0 < s.n) {v q t : Nat} {f : Pkt} {h : Head} (hv : v / perStage s = t) (ht : t < s.n)
    (hh : v % perStage s / s.k ^ (s.n - 1 - t) = f.dest / s.k ^ (s.n - t)) (ha : Arrives (destTagFly s rng) v q f h) :
    Good s rng f.dest t h := by
  obtain ⟨rnd, o, ho, rfl⟩ := ha
  unfold destTagFly at ho
  split at ho
  · rename_i hvc
    dsimp only at ho
    rw [stage_eq hk hn, hv, divs_eq] at ho
    cases ho
    exact ⟨ht, hv, rfl, hh, rfl, ⟨rfl, rfl⟩, Nat.le_trans hvc.1 hvc.2⟩
  · cases ho

theorem enters (hk : 0 < s.k) (hn : 0 < s.n) {c : Nat} {h : Head} (he : FlyEnters s rng c h) : Good s rng h.pkt.dest 0 h := by
  obtain ⟨f, hc, hf, ha⟩ := he
  have hcd : c / s.k < perStage s := (Nat.div_lt_iff_lt_mul hk).2 (by rw [← nodes_eq hn]; exact hc)
  have hg := arrives hk hn (t := 0) (Nat.div_eq_of_lt hcd) hn (by
    rw [Nat.mod_eq_of_lt hcd, Nat.sub_zero, Nat.sub_zero]
    rw [show f.dest / s.k ^ s.n = 0 from Nat.div_eq_of_lt hf]
    exact Nat.div_eq_of_lt hcd) ha
  rw [hg.dest]; exact hg

theorem takes (hk : 0 < s.k) (hn : 0 < s.n) {D t : Nat} {h h' : Head} {c : Nat × Nat} (hg : Good s rng D t h)
    (ht : FlyTakes s rng h c h') : Good s rng D (t + 1) h' := by
  obtain ⟨h1, h2, h3, h4, h5, v, q, h6, h7⟩ := ht
  rw [hg.node] at h1 h3
  have hm := Nat.mod_lt h.node (per_pos hk)
  rw [h3, receivers_eq hk hn h1 hm h2] at h6
  simp only [List.cons.injEq, Prod.mk.injEq, and_true] at h6
  obtain ⟨-, e1, e2⟩ := next_lt hk h1 hm h2
  rw [← h6.1] at h7
  have := arrives hk hn (t := t + 1) (f := { h.pkt with vc := c.2 }) e1 (by omega) (by
    rw [e2]
    have ew : s.k ^ (s.n - 1 - (t + 1)) = weight s (t + 1) := by unfold weight; congr 1; omega
    rw [ew, put_div (weight_pos hk _)]
    have hhigh := hg.high
    have e3 : s.k ^ (s.n - 1 - t) = weight s (t + 1) * s.k := by
      unfold weight; rw [← Nat.pow_succ]; congr 1; omega
    have e4 : s.k ^ (s.n - t) = s.k ^ (s.n - (t + 1)) * s.k := by rw [← Nat.pow_succ]; congr 1; omega
    have e5 : s.n - 1 - t = s.n - (t + 1) := by omega
    rw [e3, e4, ← Nat.div_div_eq_div_mul, ← Nat.div_div_eq_div_mul] at hhigh
    rw [hhigh, hg.port, e5]
    show _ = h.pkt.dest / _
    rw [hg.dest, Nat.mul_comm]
    exact Nat.div_add_mod _ _) h7
  rw [← hg.dest]; exact this

theorem Good.port_lt (hk : 0 < s.k) {D t : Nat} {h : Head} (hg : Good s rng D t h) : h.out.port < s.k := by
  rw [hg.port]; exact Nat.mod_lt _ hk

theorem can (hk : 0 < s.k) (hn : 0 < s.n) {D t : Nat} {h : Head} (hg : Good s rng D t h) (ht : t < s.n - 1) {vc : Nat}
    (h1 : h.out.vcBegin ≤ vc) (h2 : vc ≤ h.out.vcEnd) :
    ∃ h', FlyTakes s rng h (flyOut s t (h.node % perStage s) h.out.port, vc) h' := by
  have hm := Nat.mod_lt h.node (per_pos hk)
  have hv : vcOk rng { h.pkt with vc := vc } := ⟨by rw [← hg.vcs.1]; exact h1, by rw [← hg.vcs.2]; exact h2⟩
  exact ⟨_, by rw [hg.node]; exact ht, hg.port_lt hk, by rw [hg.node], h1, h2, _, _, receivers_eq hk hn ht hm (hg.port_lt hk), false, _,
    by unfold destTagFly; rw [if_pos hv], rfl⟩

/-- At the last stage the head wants the terminal of its destination. -/
theorem ejects (hn : 0 < s.n) {D : Nat} {h : Head} (hg : Good s rng D (s.n - 1) h) : FlyEjects s h D := by
  refine ⟨hg.node, ?_⟩
  have h1 := hg.high
  have h2 := hg.port
  have e1 : s.n - 1 - (s.n - 1) = 0 := by omega
  have e2 : s.n - (s.n - 1) = 1 := by omega
  rw [e1, e2, Nat.pow_zero, Nat.div_one, Nat.pow_one] at h1
  rw [e1, Nat.pow_zero, Nat.div_one] at h2
  rw [h1, h2, Nat.mul_comm]
  exact (Nat.div_add_mod _ _).symm

theorem moves (hk : 0 < s.k) (hn : 0 < s.n) {D : Nat} : ∀ (l : List ((Nat × Nat) × Head)) (t : Nat) (h : Head), Good s rng D t h →
    Moves (FlyTakes s rng) h l → Good s rng D (t + l.length) (last h l)
  | [], _, _, hg, _ => hg
  | (c, h') :: l, t, h, hg, hm => by
    have := moves hk hn l (t + 1) h' (takes hk hn hg hm.1) hm.2
    rw [show t + (List.length ((c, h') :: l)) = t + 1 + l.length by simp only [List.length_cons]; omega]
    exact this

end RadSim.Routing.Fly
