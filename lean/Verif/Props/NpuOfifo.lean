import Verif.Lemmas.NpuOfifo

/-!
# C151: the output FIFOs of the sectors keep and order the results

A sector of the npu design writes results of `3 * 4` elements to a FIFO from which words of 4 elements are read. With the writer that
stops when the FIFO is almost full and the reader that stops when it is empty, no result is lost, changed or reordered.
-/

namespace RadSim.Npu

variable {α : Type} {c : WideCfg} {zero : α}

/-- C151. In all runs, with any reader and any stalls by the other FIFOs, the FIFO neither overflows nor underflows, holds no more than the
limit for almost full, and the elements written are the elements read and those still in it, in their order; the words read and those
in it have the output width. -/
theorem C151_conserves (h1 : c.iwidth / c.owidth ≤ c.limit) (h2 : c.limit ≤ c.cap) (h3 : c.cap < 2 ^ 32) {f : WideFifo α}
    (hf : WideFifo.new c = some f) (is : List (OfifoIn α)) (hw : ∀ i ∈ is, ∀ w ∈ i.word, w.length = c.iwidth) :
    ∃ f' wr rd, ofifoRun c zero f is = some (f', wr, rd) ∧ wr.flatten = rd.flatten ++ f'.mem.flatten ∧
      f'.mem.length ≤ c.limit ∧ (∀ x ∈ rd ++ f'.mem, x.length = c.owidth) := by
  have hc : Ofifo.Fits c := ⟨h1, h2, h3⟩
  have hr : c.ratio * c.owidth = c.iwidth := by
    unfold WideFifo.new at hf
    split at hf
    · cases hf
    · rename_i h
      exact Nat.div_mul_cancel (Nat.dvd_of_mod_eq_zero (Classical.byContradiction fun hn => h (.inr hn)))
  obtain ⟨hg, hm⟩ := Ofifo.new_good (zero := zero) hf
  obtain ⟨f', wr, rd, e1, e2, e3, e4⟩ := Ofifo.run hc is f hg (fun i hi w hx => by rw [hr]; exact hw i hi w hx)
  rw [hm, List.nil_append] at e3
  refine ⟨f', wr, rd, e1, ?_, e2.space, fun x hx => ?_⟩
  · rw [← List.flatten_append, ← e3]
    clear e1 e3
    induction wr with
    | nil => rfl
    | cons w l ih =>
      rw [List.flatten_cons, List.flatMap_cons, List.flatten_append, Ofifo.chunks_flatten w (e4 w List.mem_cons_self),
        ih (fun x hx => e4 x (List.mem_cons_of_mem _ hx))]
  · rw [← e3] at hx
    obtain ⟨w, -, hx⟩ := List.mem_flatMap.1 hx
    exact Ofifo.chunks_width w x hx

/-- C151. In the configuration of the design, word `n` that is read is dot product `n % dots` of result `n / dots`: its element `j` is the sum over
the tiles of that element of the result of engine `j`. -/
theorem C151_words (add : α → α → α) {dots dpes tiles cap limit low : Nat} (hd : 0 < dots) (hp : 0 < dpes)
    (h1 : dots ≤ limit) (h2 : limit ≤ cap) (h3 : cap < 2 ^ 32)
    {f : WideFifo α} (hf : WideFifo.new ⟨cap, dots * dpes, dpes, limit, low⟩ = some f) (is : List (OfifoIn α))
    (hw : ∀ i ∈ is, ∀ w ∈ i.word, ∃ res, w = reshaped add zero dots dpes tiles res)
    {f' : WideFifo α} {wr rd : List (List α)} (hr : ofifoRun ⟨cap, dots * dpes, dpes, limit, low⟩ zero f is = some (f', wr, rd))
    {n : Nat} (hn : n < rd.length) :
    ∃ w, wr[n / dots]? = some w ∧ ∀ res, w = reshaped add zero dots dpes tiles res → ∀ j, j < dpes →
      rd[n][j]? = some ((List.range tiles).foldl
        (fun acc t => if res j t = [] then acc else add acc ((res j t).getD (n % dots) zero)) zero) := by
  have hratio : (⟨cap, dots * dpes, dpes, limit, low⟩ : WideCfg).ratio = dots := Nat.mul_div_cancel _ hp
  have hc : Ofifo.Fits ⟨cap, dots * dpes, dpes, limit, low⟩ := ⟨by rw [hratio]; exact h1, h2, h3⟩
  obtain ⟨hg, hm⟩ := Ofifo.new_good (zero := zero) hf
  obtain ⟨g', wr', rd', e1, e2, e3, e4⟩ := Ofifo.run hc is f hg (fun i hi w hx => by
    obtain ⟨res, rfl⟩ := hw i hi w hx
    rw [hratio]; unfold reshaped; simp)
  rw [hr] at e1
  cases e1
  rw [hm, List.nil_append] at e3
  have hget : (rd ++ f'.mem)[n]? = some rd[n] := by
    rw [List.getElem?_append_left hn, List.getElem?_eq_getElem hn]
  rw [← e3, Ofifo.flatMap_get _ hd (fun x => by rw [Ofifo.chunks_length, hratio])] at hget
  cases hwn : wr[n / dots]? with
  | none => rw [hwn] at hget; cases hget
  | some w =>
    rw [hwn] at hget
    refine ⟨w, rfl, ?_⟩
    rintro res rfl j hj
    have hget' : ((⟨cap, dots * dpes, dpes, limit, low⟩ : WideCfg).chunks zero (reshaped add zero dots dpes tiles res))[n % dots]? = some rd[n] := hget
    unfold WideCfg.chunks at hget'
    rw [hratio] at hget'
    have hmod := Nat.mod_lt n hd
    rw [List.getElem?_map, List.getElem?_range hmod] at hget'
    have hget2 := Option.some.inj hget'
    rw [← hget2, List.getElem?_map, List.getElem?_range hj]
    have hidx : n % dots * dpes + j < dots * dpes := by
      have : (n % dots + 1) * dpes ≤ dots * dpes := Nat.mul_le_mul_right _ hmod
      rw [Nat.add_mul, Nat.one_mul] at this; omega
    show some (List.getD _ _ _) = _
    unfold reshaped
    rw [List.getD_eq_getElem?_getD, List.getElem?_map, List.getElem?_range hidx]
    show some (List.foldl _ _ _) = _
    have a1 : (n % dots * dpes + j) % dpes = j := by rw [Nat.mul_comm, Nat.mul_add_mod, Nat.mod_eq_of_lt hj]
    have a2 : (n % dots * dpes + j) / dpes = n % dots := by
      rw [Nat.mul_comm, Nat.mul_add_div hp, Nat.div_eq_of_lt hj, Nat.add_zero]
    rw [a1, a2]

/-- C151. A reader that takes words in every cycle makes room: within as many cycles as a result has words the FIFO does not stop the writer. -/
theorem C151_makes_room (h1 : c.iwidth / c.owidth ≤ c.limit) (h2 : c.limit ≤ c.cap) (h3 : c.cap < 2 ^ 32) {f0 f : WideFifo α}
    (hf : WideFifo.new c = some f0) (before : List (OfifoIn α)) (hb : ∀ i ∈ before, ∀ w ∈ i.word, w.length = c.iwidth)
    {wr rd : List (List α)} (hr : ofifoRun c zero f0 before = some (f, wr, rd))
    (is : List (OfifoIn α)) (hw : ∀ i ∈ is, ∀ w ∈ i.word, w.length = c.iwidth) (hwant : ∀ i ∈ is, i.want = true)
    (hl : is.length = c.iwidth / c.owidth) :
    ∃ j f' wr' rd', j ≤ is.length ∧ ofifoRun c zero f (is.take j) = some (f', wr', rd') ∧ f'.almostFull = false := by
  have hc : Ofifo.Fits c := ⟨h1, h2, h3⟩
  have hq : c.ratio * c.owidth = c.iwidth := by
    unfold WideFifo.new at hf
    split at hf
    · cases hf
    · rename_i h
      exact Nat.div_mul_cancel (Nat.dvd_of_mod_eq_zero (Classical.byContradiction fun hn => h (.inr hn)))
  obtain ⟨hg0, -⟩ := Ofifo.new_good (zero := zero) hf
  obtain ⟨g', wr1, rd1, e1, hg, -, -⟩ := Ofifo.run hc before f0 hg0 (fun i hi w hx => by rw [hq]; exact hb i hi w hx)
  rw [hr] at e1
  cases e1
  have key : ∀ (l : List (OfifoIn α)) (g : WideFifo α), Ofifo.Good c zero g → (∀ i ∈ l, ∀ w ∈ i.word, w.length = c.iwidth) →
      (∀ i ∈ l, i.want = true) → g.mem.length ≤ c.limit - c.ratio + l.length →
      ∃ j f' wr' rd', j ≤ l.length ∧ ofifoRun c zero g (l.take j) = some (f', wr', rd') ∧ f'.almostFull = false := by
    intro l
    induction l with
    | nil =>
      intro g hg _ _ hle
      refine ⟨0, g, [], [], Nat.le_refl _, rfl, ?_⟩
      cases ha : g.almostFull
      · rfl
      · have := hg.full.1 ha
        simp only [List.length_nil] at hle
        omega
    | cons i l ih =>
      intro g hg hw hwt hle
      cases ha : g.almostFull
      · exact ⟨0, g, [], [], Nat.zero_le _, rfl, ha⟩
      · obtain ⟨g1, go, ren, t1, t2, t3, t4, -, t6⟩ := Ofifo.tick hc hg i.others i.want i.word
          (fun w hx => by rw [hq]; exact hw i List.mem_cons_self w hx)
        have hgo : go = false := by rw [t3, ha]; rfl
        have hlen := hg.full.1 ha
        have hren : ren = true := by
          rw [t4, hwt i List.mem_cons_self]
          cases hmm : g.mem with
          | nil => rw [hmm] at hlen; simp at hlen
          | cons => rfl
        rw [hgo, hren] at t6
        simp only [if_true, Bool.false_eq_true, if_false, Nat.add_zero] at t6
        simp only [List.length_cons] at hle
        obtain ⟨j, f', wr', rd', j1, j2, j3⟩ := ih g1 t2 (fun x hx => hw x (List.mem_cons_of_mem _ hx))
          (fun x hx => hwt x (List.mem_cons_of_mem _ hx)) (by omega)
        refine ⟨j + 1, f', (if go then i.word.toList else []) ++ wr', (if ren then [g.rdata] else []) ++ rd', by simp only [List.length_cons]; omega, ?_, j3⟩
        rw [List.take_succ_cons, ofifoRun, t1]
        dsimp only
        rw [j2]; rfl
  refine key is f hg hw hwant ?_
  have hs := hg.space
  have hr' : c.ratio ≤ c.limit := h1
  have hl' : is.length = c.ratio := hl
  omega

/-- C151. The FIFO of the design meets the conditions. -/
theorem C151_design : (WideFifo.new sectorCfg : Option (WideFifo α)).isSome ∧ sectorCfg.iwidth / sectorCfg.owidth ≤ sectorCfg.limit ∧
    sectorCfg.limit ≤ sectorCfg.cap ∧ sectorCfg.cap < 2 ^ 32 := by
  refine ⟨?_, by decide, by decide, by decide⟩
  unfold WideFifo.new
  rw [if_neg (by decide)]; rfl

/-- C151. Without them the FIFO is wrong: with room for two words and results of three, the difference of unsigned numbers wraps, and the FIFO takes
more words than it has room for and never is full. -/
theorem C151_small_violated : ∃ (f f' : WideFifo Nat) (wr rd : List (List Nat)),
    WideFifo.new ⟨2, 12, 4, 2, 0⟩ = some f ∧
    ofifoRun ⟨2, 12, 4, 2, 0⟩ 0 f (List.replicate 3 ⟨true, false, some (List.range 12)⟩) = some (f', wr, rd) ∧
    f'.mem.length = 9 ∧ f'.full = false ∧ f'.almostFull = false :=
  ⟨⟨[], true, true, false, false, []⟩, _, _, _, rfl, rfl, by decide, by decide, by decide⟩

/-- Two results of two engines with two dot products, read as four words; the reader starts late. -/
example : (ofifoRun ⟨8, 4, 2, 6, 0⟩ 0 ⟨[], true, true, false, false, []⟩
    ([⟨true, false, some [1, 2, 3, 4]⟩, ⟨false, true, some [5, 6, 7, 8]⟩, ⟨true, true, some [5, 6, 7, 8]⟩] ++
      List.replicate 3 ⟨true, true, none⟩)).map (fun x => (x.1.mem, x.2)) =
    some ([], [[1, 2, 3, 4], [5, 6, 7, 8]], [[1, 2], [3, 4], [5, 6], [7, 8]]) := by decide

/-- Engine 0 of tile 0 and of tile 1, and engine 1: the elements of a result are the dot products of the engines, one after another. -/
example : reshaped (· + ·) 0 2 2 2 (fun d t => [10 * d + t, 100 + 10 * d + t]) = [1, 21, 201, 221] := by decide

example : ∃ f : WideFifo Nat, WideFifo.new sectorCfg = some f := ⟨⟨[], true, true, false, false, []⟩, rfl⟩

example := C151_conserves (c := sectorCfg) (zero := 0) (f := ⟨[], true, true, false, false, []⟩) (by decide) (by decide) (by decide) rfl
  [⟨true, true, some (List.range 12)⟩] (by decide)

/-- A result of two engines and two tiles is written and its first word read. -/
example := C151_words (zero := 0) (· + ·) (dots := 2) (dpes := 2) (tiles := 2) (cap := 8) (limit := 6) (low := 0) (by decide) (by decide)
  (by decide) (by decide) (by decide) (f := ⟨[], true, true, false, false, []⟩) rfl
  [⟨true, false, some (reshaped (· + ·) 0 2 2 2 fun d t => [10 * d + t, 100 + 10 * d + t])⟩, ⟨true, true, none⟩]
  (by
    intro i hi w hx
    simp only [List.mem_cons, List.not_mem_nil, or_false] at hi
    rcases hi with rfl | rfl
    · exact ⟨_, (Option.some.inj hx).symm⟩
    · cases hx) rfl (n := 0) (by decide)

/-- Three results fill a FIFO with a limit of six words; a reader makes room in two cycles. -/
example := C151_makes_room (c := ⟨8, 4, 2, 6, 0⟩) (zero := 0) (f0 := ⟨[], true, true, false, false, []⟩) (by decide) (by decide) (by decide) rfl
  (List.replicate 3 ⟨true, false, some [1, 2, 3, 4]⟩) (by decide) rfl (List.replicate 2 ⟨true, true, some [5, 6, 7, 8]⟩) (by decide) (by decide) rfl

end RadSim.Npu
