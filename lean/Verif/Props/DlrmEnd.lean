import Verif.Lemmas.DlrmEnd
import Verif.Props.DlrmCompile
import Verif.Props.DlrmFi
import Verif.Props.DlrmLookup

/-!
The front of the DLRM design as a whole: compiler, embedding lookup, memory and
feature interaction.
-/
namespace RadSim.Dlrm

open Spec

section
variable {nd mvms : Nat} {tabs : List Tab} {samples : List (List Lookup)} {cfg : Cfg}
  {ecfg : ElCfg} {eins : Nat → ElIn} {fins : Nat → FiIn} {mem : Nat → Nat → Nat}

/-- The stream that a channel carries. -/
def stream (ecfg : ElCfg) (mem : Nat → Nat → Nat) (samples : List (List Lookup)) (c i : Nat) : Nat :=
  (((wanted ecfg.portBase c samples.flatten)[i]?).map (mem c)).getD 0

theorem front_feeds (h : Front nd mvms tabs samples cfg ecfg eins fins mem) :
    Feeds cfg fins (stream ecfg mem samples) := by
  intro c hc n i w hw
  have h1 := h.answered c hc n
  have h2 := (C117_requests_partial ecfg eins h.named h.notTwice n).2 c (h.channels ▸ hc)
  have h3 := wanted_mono ecfg.portBase c (h.driver n)
  obtain ⟨x, hx⟩ := h1
  obtain ⟨y, hy⟩ := h2.trans h3
  have h4 : ((requested ecfg eins c n).map (mem c))[i]? = some w := by
    rw [← hx, List.getElem?_append_left (List.getElem?_eq_some_iff.mp hw).1]
    exact hw
  rw [List.getElem?_map] at h4
  unfold stream
  rw [← hy]
  cases hr : (requested ecfg eins c n)[i]? with
  | none => rw [hr] at h4; cases h4
  | some a =>
    rw [List.getElem?_append_left (List.getElem?_eq_some_iff.mp hr).1, hr]
    rw [hr] at h4
    exact (Option.some.inj h4).symm

theorem front_prog (h : Front nd mvms tabs samples cfg ecfg eins fins mem) :
    cfg.prog ≠ [] := by
  have hs := (C118_schedule_partial nd mvms tabs cfg h.ndPos h.mvmsPos h.words h.out h.prog
    h.fits).2.2.2.1
  intro h0
  rw [h0] at hs
  cases ht : tabs with
  | nil => exact h.nonempty ht
  | cons t r =>
    have := (fits_mem tabs [] 0 h.fits t (by rw [ht]; simp)).2.2.1
    rw [ht] at hs
    simp at hs
    omega

/-- The vectors that the instructions make are the expected ones. -/
theorem front_vector (h : Front nd mvms tabs samples cfg ecfg eins fins mem) (j q : Nat)
    (hq : q < cfg.prog.length) (ls : List Lookup) (hls : samples[j]? = some ls) (e : Nat) :
    ((vector cfg.prog (stream ecfg mem samples) (j * cfg.prog.length + q))[e]?).getD 0 =
      ((expected ecfg.portBase mem tabs nd ls q)[e]?).getD 0 := by
  have hC := C118_schedule_partial nd mvms tabs cfg h.ndPos h.mvmsPos h.words h.out h.prog h.fits
  have hlen := hC.2.1 (front_prog h) (stream ecfg mem samples)
  have hflat := hC.2.2.2.2.2 (stream ecfg mem samples) j
  have hmem := fits_mem tabs [] 0 h.fits
  rcases Nat.lt_or_ge e nd with he | he
  · have hc := chunk_get (fun q => vector cfg.prog (stream ecfg mem samples)
      (j * cfg.prog.length + q)) nd cfg.prog.length (fun q _ => hlen _) q hq e he
    rw [hflat] at hc
    rw [← hc]
    have hcon : contents (stream ecfg mem samples) (fun c => j * tablesOn c tabs) tabs =
        looked ecfg.portBase mem ls tabs := by
      apply contents_looked ecfg.portBase mem _ tabs ls _ (h.inputs ls (List.mem_of_getElem? hls))
      intro t ht i a ha
      have := wanted_flatten ecfg.portBase (t.fifo - 1) (tablesOn (t.fifo - 1) tabs) samples
        (fun x hx => wanted_length ecfg.portBase _ tabs x (h.inputs x hx)) j ls hls i a ha
      unfold stream
      rw [this]
      rfl
    rw [hcon]
    unfold expected
    rw [List.getElem?_map, List.getElem?_range he]
    dsimp only [Option.map_some, Option.getD_some]
    rcases Nat.lt_or_ge (q * nd + e) (looked ecfg.portBase mem ls tabs).length with hl | hl
    · rw [List.getElem?_append_left hl]
    · rw [List.getElem?_append_right hl, List.getElem?_eq_none hl, List.getElem?_replicate]
      split <;> rfl
  · rw [List.getElem?_eq_none (by rw [hlen]; exact he),
      List.getElem?_eq_none (by unfold expected; simpa using he)]

/-- Whatever the timing: the front of the design does not fail, and vector `k`, sent
to MVM `k mod mvms`, holds the words that the lookups of input `k / P` ask for, cut to
the widths of the tables, from element `(k mod P) * nd` on, `P` being the number of
vectors per input.

Partial: what `Front` asks for beyond the code of the front: tables that fit (C118), a
memory side that is never ready twice in a row (C117), answers that only come while
the module is ready (C114), in order. -/
theorem C120_vectors_partial (h : Front nd mvms tabs samples cfg ecfg eins fins mem) (n : Nat) :
    (∃ s, fiAt cfg fins n = .ok s) ∧ (∃ s, elAt ecfg eins n = .ok s) ∧
    ∀ ch < mvms, ∀ i w, (sent cfg fins ch n)[i]? = some w → ∀ ls,
      samples[(ch + i * mvms) / cfg.prog.length]? = some ls →
      Holds w (expected ecfg.portBase mem tabs nd ls ((ch + i * mvms) % cfg.prog.length)) := by
  have hC := C118_schedule_partial nd mvms tabs cfg h.ndPos h.mvmsPos h.words h.out h.prog h.fits
  have hne := front_prog h
  obtain ⟨s, hs⟩ := C115_never_fails cfg hC.1 hne (by rw [h.numOut]; exact h.mvmsPos) fins n
  refine ⟨⟨s, hs⟩, (C117_requests_partial ecfg eins h.named h.notTwice n).1, ?_⟩
  intro ch hch i w hw ls hls e
  have hv := (C114_vectors_partial cfg fins (stream ecfg mem samples) h.depth h.polite
    (front_feeds h) n s hs ch (by rw [h.numOut]; exact hch) i w hw).1 e
  rw [h.numOut] at hv
  have hpos : 0 < cfg.prog.length := List.length_pos_iff.mpr hne
  have hk : (ch + i * mvms) / cfg.prog.length * cfg.prog.length +
      (ch + i * mvms) % cfg.prog.length = ch + i * mvms := by
    rw [Nat.mul_comm]; exact Nat.div_add_mod _ _
  rw [← front_vector h _ _ (Nat.mod_lt _ hpos) ls hls e, hk]
  exact hv

theorem wanted_total (pb : Nat → Nat) (c m : Nat) : ∀ (samples : List (List Lookup)),
    (∀ ls ∈ samples, (wanted pb c ls).length = m) →
    (wanted pb c samples.flatten).length = samples.length * m := by
  intro samples
  induction samples with
  | nil => intro _; simp [wanted]
  | cons x xs ih =>
    intro h
    rw [List.flatten_cons, wanted_append, List.length_append, h x (by simp),
      ih (fun y hy => h y (by simp [hy])), List.length_cons, Nat.add_mul]
    omega

theorem front_supplied (h : Front nd mvms tabs samples cfg ecfg eins fins mem) (n0 : Nat)
    (hall : ∀ c < cfg.numCh, (arrived cfg fins c n0).length =
      (wanted ecfg.portBase c samples.flatten).length) :
    Supplied cfg (fun c => (arrived cfg fins c n0).length) (samples.length * cfg.prog.length) := by
  intro k hk st hst hfifo
  have hC := compile_ok (numCh := cfg.numCh) h.ndPos h.mvmsPos h.words tabs h.fits
  rw [← h.prog] at hC
  have hne := front_prog h
  have hpos : 0 < cfg.prog.length := List.length_pos_iff.mpr hne
  have hmem := fits_mem tabs [] 0 h.fits
  have hmem' : ∀ t ∈ tabs, 0 < t.fifo ∧ 0 < t.row.len ∧ (nd < t.row.len → t.row.len % nd = 0) :=
    fun t ht => ⟨(hmem t ht).1, (hmem t ht).2.2.1, (hmem t ht).2.2.2⟩
  obtain ⟨zs, hz, hzs⟩ := hC.flat
  have hq := Nat.mod_lt k hpos
  have hkd : k / cfg.prog.length * cfg.prog.length + k % cfg.prog.length = k := by
    rw [Nat.mul_comm]; exact Nat.div_add_mod _ _
  have hi : instAt cfg.prog k = cfg.prog[k % cfg.prog.length] := by
    unfold instAt
    rw [List.getElem?_eq_getElem hq]
    rfl
  rw [hi] at hst
  have hch := (hC.ok _ (List.getElem_mem hq) st hst).1
  dsimp only
  rw [hall (st.fifo - 1) (by omega), wanted_total ecfg.portBase _ (tablesOn (st.fifo - 1) tabs)
    samples (fun x hx => wanted_length ecfg.portBase _ tabs x (h.inputs x hx))]
  have hpops : popsIn (st.fifo - 1) cfg.prog.flatten = tablesOn (st.fifo - 1) tabs := by
    rw [hz, popsIn_append, (tabs_ok (fun _ _ => 0) nd h.ndPos tabs hmem').2, popsIn_zeros _ zs hzs,
      Nat.add_zero]
  have hbefore : popsBefore cfg.prog (st.fifo - 1) k = k / cfg.prog.length *
      tablesOn (st.fifo - 1) tabs +
      popsIn (st.fifo - 1) (cfg.prog.take (k % cfg.prog.length)).flatten := by
    conv => lhs; rw [← hkd]
    rw [pops_pass _ _ _ (by omega), pops_all, hpops]
  have hlt : popsIn (st.fifo - 1) (cfg.prog.take (k % cfg.prog.length)).flatten <
      tablesOn (st.fifo - 1) tabs := by
    obtain ⟨a, b, hab⟩ := List.append_of_mem hst
    have hsplit : cfg.prog.flatten =
        ((cfg.prog.take (k % cfg.prog.length)).flatten ++ a) ++
          st :: (b ++ (cfg.prog.drop (k % cfg.prog.length + 1)).flatten) := by
      conv => lhs; rw [← List.take_append_drop (k % cfg.prog.length) cfg.prog]
      rw [List.flatten_append, List.drop_eq_getElem_cons hq, List.flatten_cons, hab]
      simp
    rw [hz, List.append_eq_append_iff] at hsplit
    rcases hsplit with ⟨a', ha, hb⟩ | ⟨b', ha, hb⟩
    · exact absurd (hzs st (by rw [hb]; simp)).1 hfifo
    · cases b' with
      | nil =>
        rw [List.nil_append] at hb
        exact absurd (hzs st (by rw [← hb]; simp)).1 hfifo
      | cons x b' =>
        rw [List.cons_append] at hb
        injection hb with hb1 hb2
        subst hb1
        have := step_before_pop nd h.ndPos tabs hmem' _ _ _ ha
        rw [popsIn_append] at this
        omega
  have hj : k / cfg.prog.length + 1 ≤ samples.length := by
    have : k / cfg.prog.length < samples.length := by
      rw [Nat.div_lt_iff_lt_mul hpos]; exact hk
    omega
  have := Nat.mul_le_mul_right (tablesOn (st.fifo - 1) tabs) hj
  rw [Nat.add_mul, Nat.one_mul] at this
  rw [hbefore]
  omega

/-- Once all answers have come and the MVMs are ready, every input leaves: its `q`-th
vector goes to MVM `q mod mvms`, whatever input it is, and holds what is expected. -/
theorem C120_all_sent_partial (h : Front nd mvms tabs samples cfg ecfg eins fins mem) (n0 : Nat)
    (hall : ∀ c < cfg.numCh, (arrived cfg fins c n0).length =
      (wanted ecfg.portBase c samples.flatten).length)
    (hr : ∀ n, n0 ≤ n → ∀ ch < mvms, (fins n).tready ch = true) (n : Nat)
    (hn : n0 + 1 + samples.length * cfg.prog.length + cfg.depth ≤ n) :
    ∀ j ls, samples[j]? = some ls → ∀ q < cfg.prog.length,
      ∃ w, (sent cfg fins (q % mvms) n)[(j * cfg.prog.length + q) / mvms]? = some w ∧
        Holds w (expected ecfg.portBase mem tabs nd ls q) := by
  intro j ls hls q hq
  have hC := C118_schedule_partial nd mvms tabs cfg h.ndPos h.mvmsPos h.words h.out h.prog h.fits
  have hj := (List.getElem?_eq_some_iff.mp hls).1
  have hk : j * cfg.prog.length + q < samples.length * cfg.prog.length := by
    have : (j + 1) * cfg.prog.length ≤ samples.length * cfg.prog.length :=
      Nat.mul_le_mul_right _ hj
    rw [Nat.add_mul, Nat.one_mul] at this
    omega
  obtain ⟨w, hw, hh⟩ := C116_all_sent_partial cfg fins (stream ecfg mem samples) h.depth hC.1
    (front_prog h) (by rw [h.numOut]; exact h.mvmsPos) h.polite (front_feeds h) n0 _
    (front_supplied h n0 hall) (by rw [h.numOut]; exact hr) n hn _ hk
  have hmod : (j * cfg.prog.length + q) % mvms = q % mvms := by
    obtain ⟨m, hm⟩ := hC.2.2.1
    rw [hm, Nat.mul_left_comm, Nat.mul_add_mod]
  rw [h.numOut, hmod] at hw
  exact ⟨w, hw, fun e => by rw [hh e, front_vector h j q hq ls hls e]⟩

end

namespace FrontExample

/-- Three tables on two channels: two narrow ones that share a vector, and one that
fills a vector. -/
def tabs : List Tab := [⟨true, 1, 0, ⟨0, 2, 4⟩⟩, ⟨false, 2, 0, ⟨1, 2, 4⟩⟩, ⟨true, 1, 256, ⟨2, 4, 4⟩⟩]

/-- Two inputs. -/
def samples : List (List Lookup) :=
  [[⟨0, 0, 0⟩, ⟨64, 1, 0⟩, ⟨128, 0, 256⟩], [⟨64, 0, 0⟩, ⟨0, 1, 0⟩, ⟨0, 0, 256⟩]]

def cfg : Cfg where
  numCh := 2
  depth := 8
  numOut := 2
  inElems := 4
  outElems := 4
  prog := compile 4 2 tabs

def ecfg : ElCfg := ⟨2, 16, fun c => 1000 * c⟩

def mem (_c a : Nat) : Nat := a + 2 ^ 16 * (a + 1) + 2 ^ 32 * (a + 2) + 2 ^ 48 * (a + 3)

/-- The inputs are handed over in periods 0 and 1; requests are accepted in every
other period. -/
def eins (n : Nat) : ElIn where
  valid := decide (n < 2)
  data := (samples[n]?).getD []
  arready := fun _ => n % 2 == 1

/-- The answers come from period 20 on, one per period and channel. -/
def fins (n : Nat) : FiIn where
  rvalid := fun c => decide (20 ≤ n) && decide (n < 20 + if c = 0 then 4 else 2)
  rdata := fun c => stream ecfg mem samples c (n - 20)
  tready := fun _ => decide (22 ≤ n)

theorem quiet (n : Nat) (h : 24 ≤ n) (c : Nat) : (fins n).rvalid c = false := by
  have : decide (n < 20 + if c = 0 then 4 else 2) = false := by
    rw [decide_eq_false_iff_not]
    split <;> omega
  simp only [fins, this, Bool.and_false]

theorem handed_stop : ∀ d, handed ecfg eins (2 + d) = samples.flatten := by
  intro d
  induction d with
  | zero => decide +kernel
  | succ d ih =>
    rw [show 2 + (d + 1) = 2 + d + 1 by omega, handed, ih]
    have : (eins (2 + d)).valid = false := by simp [eins]
    split
    · simp
    · rw [this]; simp

theorem driver (n : Nat) : handed ecfg eins n <+: samples.flatten := by
  have h := handed_mono ecfg eins n 2
  rw [show n + 2 = 2 + n by omega, handed_stop n] at h
  exact h

theorem named : Channels ecfg eins := by
  have hall : ∀ n < 2, ∀ l ∈ (eins n).data, l.channel < ecfg.numCh := by decide
  intro n l hl
  rcases Nat.lt_or_ge n 2 with hn | hn
  · exact hall n hn l hl
  · have : (eins n).data = [] := by
      have h0 : samples[n]? = none := List.getElem?_eq_none (by exact hn)
      simp only [eins, h0, Option.getD_none]
    rw [this] at hl
    cases hl

theorem notTwice : NotTwice ecfg eins := by
  intro n s _ c _ _ h
  simp only [eins, beq_iff_eq] at h
  simp only [eins, beq_eq_false_iff_ne]
  omega

theorem requested_more (c n : Nat) : ∀ d, requested ecfg eins c n <+: requested ecfg eins c (n + d) := by
  intro d
  induction d with
  | zero => exact List.prefix_refl _
  | succ d ih =>
    rw [show n + (d + 1) = n + d + 1 by omega, requested]
    exact ih.trans (List.prefix_append _ _)

theorem arrived_stop (c : Nat) : ∀ d, arrived cfg fins c (24 + d) = arrived cfg fins c 24 := by
  intro d
  induction d with
  | zero => rfl
  | succ d ih =>
    rw [show 24 + (d + 1) = 24 + d + 1 by omega, arrived, ih]
    split
    · simp
    · rw [quiet (24 + d) (by omega)]; simp

theorem answered : Answered ecfg eins cfg fins mem := by
  have hall : ∀ c < 2, ∀ n < 25, arrived cfg fins c n <+: (requested ecfg eins c n).map (mem c) := by
    decide +kernel
  intro c hc n
  rcases Nat.lt_or_ge n 25 with hn | hn
  · exact hall c hc n hn
  · have h1 := arrived_stop c (n - 24)
    have h2 := requested_more c 24 (n - 24)
    rw [show 24 + (n - 24) = n by omega] at h1 h2
    rw [h1]
    exact (hall c hc 24 (by omega)).trans (h2.map _)

theorem polite : Polite cfg fins := by
  intro n s hs c hc hv
  rcases Nat.lt_or_ge n 24 with hn | hn
  · have hall : ∀ n < 24, ∀ c < 2, (match fiAt cfg fins n with
        | .error _ => false
        | .ok s => rready s c) = true := by decide +kernel
    have := hall n hn c hc
    rw [hs] at this
    exact this
  · rw [quiet n hn] at hv; cases hv

theorem front : Front 4 2 tabs samples cfg ecfg eins fins mem where
  ndPos := by decide
  mvmsPos := by decide
  nonempty := by decide
  words := by decide
  out := rfl
  numOut := rfl
  prog := rfl
  fits := by decide +kernel
  depth := by decide
  channels := rfl
  inputs := by unfold Matches; decide
  driver := driver
  named := named
  notTwice := notTwice
  answered := answered
  polite := polite

/-- The hypotheses hold together; the two vectors of the second input come out. -/
example : (∀ j ls, samples[j]? = some ls → ∀ q < 2,
      ∃ w, (sent cfg fins (q % 2) 40)[(j * 2 + q) / 2]? = some w ∧
        Holds w (expected ecfg.portBase mem tabs 4 ls q)) ∧
    expected ecfg.portBase mem tabs 4 [⟨64, 0, 0⟩, ⟨0, 1, 0⟩, ⟨0, 0, 256⟩] 0 = [64, 65, 1000, 1001] ∧
    expected ecfg.portBase mem tabs 4 [⟨64, 0, 0⟩, ⟨0, 1, 0⟩, ⟨0, 0, 256⟩] 1 = [256, 257, 258, 259] :=
  ⟨C120_all_sent_partial front 24 (by decide +kernel)
    (fun n hn ch _ => by simp only [fins, decide_eq_true_eq]; omega) 40 (by decide +kernel),
    by decide +kernel, by decide +kernel⟩

end FrontExample

end RadSim.Dlrm
