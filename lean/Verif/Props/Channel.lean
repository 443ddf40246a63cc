import Verif.Model.Channel
import Verif.Spec.Channel
import Mathlib.Data.List.Basic

/-! # Channels -/

namespace RadSim.Channel

variable {α : Type}

/-- The items sent in the last ticks before tick `n`. -/
def waiting (d : Int) (now : Nat → Int) (inp : Nat → Option α) (a n : Nat) : Queue α :=
  (List.range' a (n - a)).filterMap fun m => (inp m).map fun x => (now m + d - 1, x)

theorem waiting_snoc {d : Int} {now : Nat → Int} {inp : Nat → Option α} {a n : Nat} (h : a ≤ n) :
    waiting d now inp a (n + 1) = waiting d now inp a n ++ ((inp n).map fun x => (now n + d - 1, x)).toList := by
  unfold waiting
  rw [show n + 1 - a = (n - a) + 1 by omega, List.range'_concat, List.filterMap_append]
  simp only [Nat.one_mul, show a + (n - a) = n by omega, List.filterMap_cons, List.filterMap_nil]
  cases inp n <;> rfl

theorem waiting_cons {d : Int} {now : Nat → Int} {inp : Nat → Option α} {a n : Nat} (h : a < n) :
    waiting d now inp a n = ((inp a).map fun x => (now a + d - 1, x)).toList ++ waiting d now inp (a + 1) n := by
  unfold waiting
  rw [show n - a = (n - (a + 1)) + 1 by omega, List.range'_succ, List.filterMap_cons]
  cases inp a <;> rfl

theorem write_none {now : Int} {q : Queue α} (h : ∀ x ∈ q, now < x.1) : write now q = (q, none) := by
  cases q with
  | nil => rfl
  | cons x q => simp only [write]; rw [if_pos (h x (by simp))]

/-- The queue holds what was sent in the last `k` ticks, when the delay is over after exactly `k` ticks. -/
theorem run_eq {d : Int} {now : Nat → Int} {inp : Nat → Option α} {N k : Nat}
    (hi : ∀ n < N, now n + d ≤ intMax)
    (hlt : ∀ m n, n < N → m ≤ n → n < m + k → now n < now m + d - 1)
    (hge : ∀ m n, n < N → m + k = n → now m + d - 1 ≤ now n) :
    ∀ n ≤ N, (run d now inp n).map Prod.fst = some (waiting d now inp (n - k) n) ∧
      (0 < n → output d now inp (n - 1) = if k ≤ n - 1 then inp (n - 1 - k) else none) := by
  intro n
  induction n with
  | zero => intro _; exact ⟨by simp [run, waiting], by omega⟩
  | succ n ih =>
    intro hn
    have h1 := (ih (by omega)).1
    obtain ⟨s, hs, hq⟩ := Option.map_eq_some_iff.1 h1
    have hread : read d (now n) (inp n) s.1 = some (waiting d now inp (n - k) (n + 1)) := by
      rw [waiting_snoc (by omega), hq]
      cases h : inp n with
      | none => simp [read]
      | some x => simp [read, hi n (by omega)]
    have hrun : run d now inp (n + 1) = some (write (now n) (waiting d now inp (n - k) (n + 1))) := by
      simp only [run, hs, Option.bind_some, tick, hread, Option.map_some]
    have hnew : ∀ a, n < a + k → ∀ x ∈ waiting d now inp a (n + 1), now n < x.1 := by
      intro a ha x hx
      simp only [waiting, List.mem_filterMap, List.mem_range'_1, Option.map_eq_some_iff] at hx
      obtain ⟨m, hm, y, _, rfl⟩ := hx
      exact hlt m n (by omega) (by omega) (by omega)
    have hw : write (now n) (waiting d now inp (n - k) (n + 1)) =
        (waiting d now inp (n + 1 - k) (n + 1), if k ≤ n then inp (n - k) else none) := by
      by_cases hk : k ≤ n
      · rw [if_pos hk, waiting_cons (by omega), show n + 1 - k = n - k + 1 by omega]
        cases h : inp (n - k) with
        | none =>
          simp only [Option.map_none, Option.toList_none, List.nil_append]
          exact write_none (hnew _ (by omega))
        | some x =>
          simp only [Option.map_some, Option.toList_some, List.singleton_append, write]
          rw [if_neg (by have := hge (n - k) n (by omega) (by omega); omega)]
      · rw [if_neg hk, show n - k = 0 by omega, show n + 1 - k = 0 by omega]
        exact write_none (hnew 0 (by omega))
    rw [hw] at hrun
    refine ⟨by rw [hrun]; rfl, fun _ => ?_⟩
    simp only [output, Nat.add_sub_cancel, hrun]
    rfl

theorem delivers_of {d : Int} {now : Nat → Int} {inp : Nat → Option α} {N k : Nat}
    (hi : ∀ n < N, now n + d ≤ intMax)
    (hlt : ∀ m n, n < N → m ≤ n → n < m + k → now n < now m + d - 1)
    (hge : ∀ m n, n < N → m + k = n → now m + d - 1 ≤ now n) :
    DeliversUpto N k inp (output d now inp) := by
  intro n hn
  have := (run_eq (inp := inp) hi hlt hge (n + 1) (by omega)).2 (by omega)
  simpa using this

theorem simTime_small {v : Nat} (h : v < 2147483648) : simTime v = v := by
  unfold simTime
  rw [Nat.mod_eq_of_lt (by omega), if_pos h]

/-- C46, as it is. With a clock period of `p` picoseconds a channel of latency `d` delays every item by
`⌈(d - 1) / p⌉` ticks, not by `d - 1` ticks, as long as the time does not overflow. Nothing is lost, repeated or
reordered. -/
theorem C46_channel_delay (p d t₀ N : Nat) (hp : 0 < p) (hd : 0 < d) (hN : t₀ + p * N + d ≤ 2147483647) (inp : Nat → Option α) :
    DeliversUpto N ((d - 1 + p - 1) / p) inp (output d (fun n => simTime (t₀ + p * n)) inp) := by
  have hs : ∀ n ≤ N, simTime (t₀ + p * n) = t₀ + p * n := by
    intro n hn
    have : p * n ≤ p * N := Nat.mul_le_mul_left p hn
    rw [simTime_small (by omega)]
    push_cast
    rfl
  generalize hk : (d - 1 + p - 1) / p = k
  have h1 : p * k ≤ d - 1 + p - 1 := by
    have := Nat.div_mul_le_self (d - 1 + p - 1) p
    rw [hk, Nat.mul_comm] at this
    exact this
  have h2 : d - 1 + p - 1 < p * k + p := by
    have := Nat.lt_div_mul_add (a := d - 1 + p - 1) hp
    rw [hk, Nat.mul_comm] at this
    exact this
  refine delivers_of ?_ ?_ ?_
  · intro n hn
    have : p * n ≤ p * N := Nat.mul_le_mul_left p (by omega)
    rw [hs n (by omega)]
    unfold intMax
    have : (p : Int) * n = ((p * n : Nat) : Int) := by push_cast; rfl
    omega
  · intro m n hn hm hlt
    rw [hs n (by omega), hs m (by omega)]
    obtain ⟨j, rfl⟩ := Nat.exists_eq_add_of_le hm
    have h3 : p * j + p ≤ p * k := by
      rw [← Nat.mul_succ]
      exact Nat.mul_le_mul_left p (by omega)
    push_cast
    rw [Int.mul_add]
    have : (p : Int) * j = ((p * j : Nat) : Int) := by push_cast; rfl
    omega
  · intro m n hn hm
    rw [hs n (by omega), hs m (by omega), ← hm]
    push_cast
    rw [Int.mul_add]
    have : (p : Int) * k = ((p * k : Nat) : Int) := by push_cast; rfl
    omega

/-- Latency 3 at the default clock of the network: the item comes out after one tick instead of two. -/
example : 0 + 571 * 100 + 3 ≤ 2147483647 ∧ (3 - 1 + 571 - 1) / 571 = 1 ∧
    ((List.range 5).map fun n => output 3 (fun n => simTime (0 + 571 * n)) (fun n => if n = 1 ∨ n = 2 then some n else none) n) =
      [none, none, some 1, some 2, none] := by
  refine ⟨by decide, by decide, by decide +kernel⟩

/-- C46 for the latencies 1 and 2, or a clock with a period of one picosecond: the delay is the configured one.
Missing: other latencies, and times above `2 ^ 31` picoseconds, where the claim is false. -/
theorem C46_channel_partial (p d t₀ N : Nat) (hp : 0 < p) (hd : 0 < d) (h : d ≤ 2 ∨ p = 1)
    (hN : t₀ + p * N + d ≤ 2147483647) (inp : Nat → Option α) :
    DeliversUpto N (d - 1) inp (output d (fun n => simTime (t₀ + p * n)) inp) := by
  have h1 := C46_channel_delay p d t₀ N hp hd hN inp
  have : (d - 1 + p - 1) / p = d - 1 := by
    rcases h with h | rfl
    · rcases (show d = 1 ∨ d = 2 by omega) with rfl | rfl
      · rw [show 1 - 1 + p - 1 = p - 1 by omega, Nat.div_eq_of_lt (by omega)]
      · rw [show 2 - 1 + p - 1 = p by omega, Nat.div_self hp]
    · simp
  rw [this] at h1
  exact h1

/-- The links of a torus have latency 2. -/
example : DeliversUpto 3 1 (fun n => if n = 0 then some 'x' else none)
    (output (2 : Nat) (fun n => simTime (0 + 571 * n)) (fun n => if n = 0 then some 'x' else none)) :=
  C46_channel_partial 571 2 0 3 (by decide) (by decide) (.inl (by decide)) (by decide) _

/-- C46 is false for every latency above 2 and every clock period above one picosecond: items come out early. -/
theorem C46_channel_violated (p d : Nat) (hp : 2 ≤ p) (hd : 3 ≤ d) (hN : p * (d + 1) + d ≤ 2147483647) :
    ∃ inp : Nat → Option Unit, ¬ DeliversUpto (d + 1) (d - 1) inp (output d (fun n => simTime (p * n)) inp) := by
  refine ⟨fun n => if n = 0 then some () else none, fun hcon => ?_⟩
  have h1 := C46_channel_delay p d 0 (d + 1) (by omega) (by omega) (by omega)
    (fun n => if n = 0 then some () else none)
  generalize hk : (d - 1 + p - 1) / p = k at h1
  have hlt : k < d - 1 := by
    have h2 := Nat.div_mul_le_self (d - 1 + p - 1) p
    rw [hk] at h2
    by_contra hge
    obtain ⟨j, hj⟩ := Nat.exists_eq_add_of_le (show d - 1 ≤ k by omega)
    obtain ⟨i, hi⟩ := Nat.exists_eq_add_of_le hp
    obtain ⟨e, he⟩ := Nat.exists_eq_add_of_le hd
    subst hi he
    have h3 : (2 + e) * (2 + i) ≤ k * (2 + i) := Nat.mul_le_mul_right _ (by omega)
    have h4 : (2 + e) * (2 + i) = 4 + 2 * e + 2 * i + e * i := by
      rw [Nat.add_mul, Nat.mul_add, Nat.mul_add]
      rw [Nat.mul_comm e 2]
      omega
    omega
  have h2 := h1 k (by omega)
  have h3 := hcon k (by omega)
  simp only [Nat.zero_add] at h2
  rw [h2] at h3
  rw [if_pos (Nat.le_refl _), if_neg (show ¬ d - 1 ≤ k by omega)] at h3
  simp at h3

/-- The links between the groups of a dragonfly have latency 100. -/
example : 2 ≤ 571 ∧ 3 ≤ 100 ∧ 571 * (100 + 1) + 100 ≤ 2147483647 := by decide

/-- C46 is false when the time reaches `2 ^ 31` picoseconds: with the default clock of the network and latency 2 an item
that is sent in the last tick before does not come out for more than seven million ticks. -/
theorem C46_channel_wrap_violated (j : Nat) (h : 1 ≤ j) (h' : j ≤ 7521834) :
    output 2 (fun n => simTime (2147483607 + 571 * n)) (fun n => if n = 0 then some () else none) j = none := by
  have key : ∀ j, 1 ≤ j → j ≤ 7521835 →
      run 2 (fun n => simTime (2147483607 + 571 * n)) (fun n => if n = 0 then some () else none) j =
        some ([(2147483608, ())], none) := by
    intro j
    induction j with
    | zero => omega
    | succ j ih =>
      intro _ hj
      by_cases h0 : j = 0
      · subst h0; decide +kernel
      · simp only [run, ih (by omega) (by omega), Option.bind_some, tick, read, if_neg h0, Option.map_some, write]
        rw [if_pos]
        unfold simTime
        have hc : (2147483607 + 571 * j) / 4294967296 = 0 ∨ (2147483607 + 571 * j) / 4294967296 = 1 := by omega
        rcases hc with hc | hc <;> split <;> omega
  unfold output
  rw [key (j + 1) (by omega) (by omega)]
  rfl

example : 2147483607 = 571 * 3760917 ∧ 571 * 3760918 > 2147483647 := by decide

end RadSim.Channel
