import Verif.Model.Config
import Mathlib.Data.List.Induction

/-! # Properties of configuration knobs (C32, C57) -/

namespace RadSim.Config

variable {D : Type}

/-! ## C32 -/

/-- Value of the last write to a knob of the given RAD (`none`: shared), kind and name. -/
def lastWrite (ws : List (Write D)) (rad : Option Nat) (k : Kind) (name : List Char) : Option (Val D) :=
  ((ws.filter fun w => w.rad = rad ∧ w.val.kind = k ∧ w.name = name).map Write.val).getLast?

theorem lastWrite_snoc (ws : List (Write D)) (w : Write D) (rad : Option Nat) (k : Kind) (name : List Char) :
    lastWrite (ws ++ [w]) rad k name =
      if w.rad = rad ∧ w.val.kind = k ∧ w.name = name then some w.val else lastWrite ws rad k name := by
  unfold lastWrite
  by_cases h : w.rad = rad ∧ w.val.kind = k ∧ w.name = name <;> simp [List.filter_append, h]

/-- State of the maps after a list of writes. -/
structure Holds (n : Nat) (ws : List (Write D)) (c : Cfg D) : Prop where
  len : c.perRad.length = n
  shared : ∀ k name, c.shared k name = lastWrite ws none k name
  perRad : ∀ r < n, ∃ m, c.perRad[r]? = some m ∧ ∀ k name, m k name = lastWrite ws (some r) k name

theorem holds_init (n : Nat) : Holds n [] (init n : Cfg D) := by
  refine ⟨by simp [init], fun _ _ => rfl, ?_⟩
  intro r hr
  exact ⟨fun _ _ => none, by simp [init, hr], fun _ _ => rfl⟩

theorem holds_write (n : Nat) (ws : List (Write D)) (c c' : Cfg D) (w : Write D) (h : Holds n ws c)
    (hw : write c w = .ok c') : Holds n (ws ++ [w]) c' := by
  obtain ⟨rad, name, v⟩ := w
  unfold write at hw
  cases rad with
  | none =>
    cases hw
    refine ⟨h.len, ?_, ?_⟩
    · intro k nm
      simp only [putKey, lastWrite_snoc, true_and]
      by_cases e : k = v.kind ∧ nm = name
      · rw [if_pos e, if_pos ⟨e.1.symm, e.2.symm⟩]
      · rw [if_neg e, if_neg (fun q => e ⟨q.1.symm, q.2.symm⟩)]
        exact h.shared k nm
    · intro r hr
      obtain ⟨m, h1, h2⟩ := h.perRad r hr
      refine ⟨m, h1, ?_⟩
      intro k nm
      rw [lastWrite_snoc, if_neg (by simp)]
      exact h2 k nm
  | some q =>
    simp only at hw
    split at hw
    next hlt =>
      cases hw
      refine ⟨by simp [h.len], ?_, ?_⟩
      · intro k nm
        rw [lastWrite_snoc, if_neg (by simp)]
        exact h.shared k nm
      · intro r hr
        obtain ⟨m, h1, h2⟩ := h.perRad r hr
        by_cases hq : q = r
        · subst hq
          refine ⟨putKey m name v, by simp [List.getElem?_modify, h1], ?_⟩
          intro k nm
          simp only [putKey, lastWrite_snoc, true_and]
          by_cases e : k = v.kind ∧ nm = name
          · rw [if_pos e, if_pos ⟨e.1.symm, e.2.symm⟩]
          · rw [if_neg e, if_neg (fun q => e ⟨q.1.symm, q.2.symm⟩)]
            exact h2 k nm
        · refine ⟨m, by simp [List.getElem?_modify, hq, h1], ?_⟩
          intro k nm
          rw [lastWrite_snoc, if_neg (by simp [hq])]
          exact h2 k nm
    · cases hw

theorem foldlM_snoc_except {α β ε : Type} (f : β → α → Except ε β) (l : List α) (a : α) (b : β) :
    (l ++ [a]).foldlM f b = (l.foldlM f b).bind fun c => f c a := by
  rw [List.foldlM_append]
  cases l.foldlM f b with
  | error e => rfl
  | ok c =>
    simp only [List.foldlM_cons, List.foldlM_nil, Except.bind]
    show (f c a).bind (fun x => Except.ok x) = f c a
    cases f c a <;> rfl

theorem holds_writes (n : Nat) (ws : List (Write D)) :
    ∀ (c' : Cfg D), ws.foldlM write (init n) = .ok c' → Holds n ws c' := by
  induction ws using List.reverseRecOn with
  | nil => intro c' h; cases h; exact holds_init n
  | append_singleton ws w ih =>
    intro c' h
    rw [foldlM_snoc_except] at h
    cases hr : ws.foldlM write (init n : Cfg D) with
    | error e => rw [hr] at h; cases h
    | ok c =>
      rw [hr] at h
      exact holds_write n ws c c' w (ih c hr) h

/-- What a read must give: the last value written, or the program stops. -/
def expected (o : Option (Val D)) : Except Err (Val D) :=
  match o with
  | some v => .ok v
  | none => .error .exit1

/-- **C32.** After any sequence of writes, to any names, kinds and RADs in any order, reading a knob gives
the last value written to exactly that name, kind and RAD, and stops the program if there is none. -/
theorem C32_read_gives_last_write (n : Nat) (ws : List (Write D)) (c : Cfg D)
    (h : ws.foldlM write (init n) = .ok c) (k : Kind) (name : List Char) :
    getShared c k name = expected (lastWrite ws none k name) ∧
    ∀ r < n, getPerRad c k name r = expected (lastWrite ws (some r) k name) := by
  have hh := holds_writes n ws c h
  constructor
  · unfold getShared expected
    rw [hh.shared]
    cases lastWrite ws none k name <;> rfl
  · intro r hr
    obtain ⟨m, h1, h2⟩ := hh.perRad r hr
    unfold getPerRad expected
    rw [h1]
    simp only [h2]
    cases lastWrite ws (some r) k name <;> rfl

/-- **C32.** A sequence of writes is accepted exactly when every RAD number is in range. -/
theorem C32_writes_accepted_iff (n : Nat) (ws : List (Write D)) :
    (∃ c, ws.foldlM write (init n) = Except.ok c) ↔ ∀ w ∈ ws, ∀ r, w.rad = some r → r < n := by
  induction ws using List.reverseRecOn with
  | nil => exact ⟨fun _ w hw => absurd hw (List.not_mem_nil), fun _ => ⟨_, rfl⟩⟩
  | append_singleton ws w ih =>
    rw [foldlM_snoc_except]
    constructor
    · rintro ⟨c, h⟩
      cases hr : ws.foldlM write (init n : Cfg D) with
      | error e => rw [hr] at h; cases h
      | ok c0 =>
        rw [hr] at h
        intro x hx r hrad
        rcases List.mem_append.mp hx with hx | hx
        · exact ih.mp ⟨c0, hr⟩ x hx r hrad
        · rw [List.mem_singleton] at hx
          subst hx
          simp only [Except.bind, write, hrad] at h
          have hl := (holds_writes n ws c0 hr).len
          split at h
          · omega
          · cases h
    · intro h
      obtain ⟨c0, hr⟩ := ih.mpr fun x hx => h x (by simp [hx])
      rw [hr]
      have hl := (holds_writes n ws c0 hr).len
      simp only [Except.bind, write]
      cases hrad : w.rad with
      | none => exact ⟨_, rfl⟩
      | some r =>
        have := h w (by simp) r hrad
        simp only [if_pos (show r < c0.perRad.length by omega)]
        exact ⟨_, rfl⟩

example : ∃ c, [⟨some 0, "noc_vcs".toList, .ints [3]⟩, ⟨some 1, "noc_vcs".toList, .ints [5]⟩,
      ⟨none, "num_rads".toList, .int 2⟩, ⟨some 0, "noc_vcs".toList, .ints [4]⟩].foldlM write (init 2 : Cfg Nat)
        = .ok c ∧
    getPerRad c .ints "noc_vcs".toList 0 = .ok (.ints [4]) ∧
    getPerRad c .ints "noc_vcs".toList 1 = .ok (.ints [5]) ∧
    getPerRad c .int "noc_vcs".toList 1 = .error .exit1 ∧
    getShared c .int "num_rads".toList = .ok (.int 2) := by
  refine ⟨_, rfl, ?_⟩; decide

/-! ## C57: what `config.py` writes is what the simulator reads -/

/-- A printed value that survives in a blank-separated line. -/
def Token (t : List Char) : Prop := t ≠ [] ∧ ' ' ∉ t

theorem getTok_blank (t r : List Char) (h : ' ' ∉ t) : getTok (t ++ ' ' :: r) = some (t, r) := by
  induction t with
  | nil => simp [getTok]
  | cons c t ih =>
    simp only [List.mem_cons, not_or] at h
    rw [List.cons_append]
    unfold getTok
    rw [if_neg (fun e => h.1 e.symm), ih h.2]

theorem getTok_end (t : List Char) (h : Token t) : getTok t = some (t, []) := by
  obtain ⟨h1, h2⟩ := h
  induction t with
  | nil => exact absurd rfl h1
  | cons c t ih =>
    simp only [List.mem_cons, not_or] at h2
    unfold getTok
    rw [if_neg (fun e => h2.1 e.symm)]
    cases t with
    | nil => rfl
    | cons d t => rw [ih (by simp) h2.2]

theorem allToks_nil : allToks [] = [] := by
  rw [allToks]
  split
  · rfl
  next h => cases h

theorem allToks_cons (t r : List Char) (h : ' ' ∉ t) : allToks (t ++ ' ' :: r) = t :: allToks r := by
  rw [allToks]
  split
  next h' => rw [getTok_blank t r h] at h'; cases h'
  next h' =>
    rw [getTok_blank t r h] at h'
    cases h'
    rfl

theorem allToks_end (t : List Char) (h : Token t) : allToks t = [t] := by
  rw [allToks]
  split
  next h' => rw [getTok_end t h] at h'; cases h'
  next h' =>
    rw [getTok_end t h] at h'
    cases h'
    rw [allToks_nil]

theorem allToks_list (ts : List (List Char)) (h : ∀ t ∈ ts, Token t) :
    allToks (ts.flatMap fun t => t ++ [' ']) = ts := by
  induction ts with
  | nil => exact allToks_nil
  | cons t ts ih =>
    rw [List.flatMap_cons, List.append_assoc, List.singleton_append,
      allToks_cons t _ (h t (by simp)).2, ih fun x hx => h x (by simp [hx])]

/-- What the printed values of a knob mean, by the type the simulator expects for its name. -/
def meaning (stoi : List Char → Option Int) (stod : List Char → Option D) :
    Cls → List (List Char) → Option (Val D)
  | .strShared, [t] => some (.str t)
  | .strPerRad, [t] => some (.str t)
  | .intShared, [t] => (stoi t).map .int
  | .intPerRad, [t] => (stoi t).map .int
  | .dblShared, [t] => (stod t).map .dbl
  | .intsPerRad, ts => (ts.mapM stoi).map .ints
  | .dblsPerRad, ts => (ts.mapM stod).map .dbls
  | .strsPerRad, ts => some (.strs ts)
  | .traces, ts => some (.strs ts)
  | _, _ => none

/-- Kinds of knobs that belong to a RAD. -/
def Cls.perRad : Cls → Bool
  | .strPerRad | .intPerRad | .intsPerRad | .dblsPerRad | .strsPerRad => true
  | _ => false

/-- A knob record in order: known name, RAD given exactly when needed and printed readably, values
readable and free of blanks, a scalar is one value. -/
structure Good (stoi : List Char → Option Int) (stod : List Char → Option D) (r : Rec) (cl : Cls)
    (rd : Option Nat) (v : Val D) : Prop where
  cls : classify r.name = some cl
  toks : ∀ t ∈ r.toks, Token t
  scalar : r.scalar = true → r.toks.length = 1
  value : meaning stoi stod cl r.toks = some v
  rad : match rd with
    | none => r.rad = none ∧ cl.perRad = false
    | some n => cl.perRad = true ∧ n < 2 ^ 32 ∧ ∃ t, r.rad = some t ∧ Token t ∧ stoi t = some (n : Int)

theorem classify_token (n : List Char) (cls : Cls) (h : classify n = some cls) : ' ' ∉ n := by
  intro hb
  unfold classify at h
  have key : ∀ s : List Char, ' ' ∉ s → n ≠ s := fun s hs e => hs (e ▸ hb)
  repeat (first
    | (rw [if_neg] at h; swap; · (simp only [not_or]; refine ⟨?_, ?_⟩ <;> exact key _ (by decide)))
    | (rw [if_neg] at h; swap; · exact key _ (by decide))
    | (rw [if_neg] at h; swap;
       · (simp only [not_or]; repeat' (first | exact key _ (by decide) | constructor))))
  cases h

theorem mapM_need {α β : Type} (f : α → Option β) : ∀ (l : List α) (vs : List β), l.mapM f = some vs →
    (l.mapM fun t => need (f t)) = (Except.ok vs : Except Err (List β)) := by
  intro l
  induction l with
  | nil =>
    intro vs h
    simp only [List.mapM_nil, Option.pure_def, Option.some.injEq] at h
    subst h
    rfl
  | cons a l ih =>
    intro vs h
    rw [List.mapM_cons] at h
    cases hf : f a with
    | none => rw [hf] at h; cases h
    | some b =>
      rw [hf] at h
      cases hl : l.mapM f with
      | none => rw [hl] at h; cases h
      | some bs =>
        rw [hl] at h
        cases h
        rw [List.mapM_cons, hf, ih bs hl]
        rfl

theorem toRad_natCast (n : Nat) (h : n < 2 ^ 32) : toRad (n : Int) = n := by unfold toRad; omega

/-- The tail of a line holds the values. -/
def valueText (r : Rec) : List Char :=
  if r.scalar then (r.toks.headD []) else r.toks.flatMap fun t => t ++ [' ']

theorem valueText_all (r : Rec) (ht : ∀ t ∈ r.toks, Token t) (hs : r.scalar = true → r.toks.length = 1) :
    allToks (valueText r) = r.toks := by
  unfold valueText
  by_cases h : r.scalar = true
  · obtain ⟨t, e⟩ := List.length_eq_one_iff.mp (hs h)
    rw [if_pos h, e]
    exact allToks_end t (ht t (by simp [e]))
  · rw [if_neg h]
    exact allToks_list r.toks ht

theorem valueText_one (r : Rec) (ht : ∀ t ∈ r.toks, Token t) (t : List Char) (e : r.toks = [t]) :
    (oneTok (valueText r)).1 = t := by
  have htt := ht t (by simp [e])
  unfold valueText oneTok
  split
  · rw [e, List.headD_cons, getTok_end t htt]; rfl
  · rw [e]
    simp only [List.flatMap_cons, List.flatMap_nil, List.append_nil]
    rw [getTok_blank t [] htt.2]
    rfl

theorem oneTok_blank (t r : List Char) (h : ' ' ∉ t) : oneTok (t ++ ' ' :: r) = (t, r) := by
  unfold oneTok
  rw [getTok_blank t r h]
  rfl

/-- The writes caused by the line of a record in order: one, plus the trace count. -/
def recWrites (r : Rec) (cls : Cls) (rad : Option Nat) (v : Val D) : List (Write D) :=
  ⟨rad, r.name, v⟩ ::
    if cls = .traces then [⟨none, "telemetry_num_traces".toList, .int r.toks.length⟩] else []

theorem meaning_scalar {stoi : List Char → Option Int} {stod : List Char → Option D} {cls : Cls}
    {ts : List (List Char)} {v : Val D} (h : meaning stoi stod cls ts = some v)
    (hc : cls = .strShared ∨ cls = .strPerRad ∨ cls = .intShared ∨ cls = .intPerRad ∨ cls = .dblShared) :
    ∃ t, ts = [t] := by
  rcases hc with rfl | rfl | rfl | rfl | rfl <;>
    (match ts, h with
     | [t], _ => exact ⟨t, rfl⟩)

theorem line_good (stoi : List Char → Option Int) (stod : List Char → Option D) (r : Rec) (cls : Cls)
    (rad : Option Nat) (v : Val D) (h : Good stoi stod r cls rad v) :
    lineWrites stoi stod (writeRec r) = .ok (recWrites r cls rad v) := by
  have hname := classify_token r.name cls h.cls
  have hall := valueText_all r h.toks h.scalar
  cases rad with
  | none =>
    obtain ⟨hr, hp⟩ := h.rad
    have hw : writeRec r = r.name ++ ' ' :: valueText r := by
      unfold writeRec valueText
      rw [hr]
      simp
    unfold lineWrites
    rw [hw, oneTok_blank _ _ hname]
    simp only [h.cls]
    cases cls with
    | strShared =>
      obtain ⟨t, e⟩ := meaning_scalar h.value (by simp)
      have hv := h.value
      rw [e] at hv
      cases hv
      rw [valueText_one r h.toks t e]
      rfl
    | intShared =>
      obtain ⟨t, e⟩ := meaning_scalar h.value (by simp)
      have hv := h.value
      rw [e] at hv
      simp only [meaning, Option.map_eq_some_iff] at hv
      obtain ⟨x, hx, rfl⟩ := hv
      rw [valueText_one r h.toks t e, hx]
      rfl
    | dblShared =>
      obtain ⟨t, e⟩ := meaning_scalar h.value (by simp)
      have hv := h.value
      rw [e] at hv
      simp only [meaning, Option.map_eq_some_iff] at hv
      obtain ⟨x, hx, rfl⟩ := hv
      rw [valueText_one r h.toks t e, hx]
      rfl
    | traces =>
      have hv := h.value
      simp only [meaning, Option.some.injEq] at hv
      subst hv
      rw [hall]
      rfl
    | ignored =>
      have hv := h.value
      cases ht : r.toks with
      | nil => rw [ht] at hv; cases hv
      | cons a l => cases l <;> (rw [ht] at hv; cases hv)
    | strPerRad => cases hp
    | intPerRad => cases hp
    | intsPerRad => cases hp
    | dblsPerRad => cases hp
    | strsPerRad => cases hp
  | some n =>
    obtain ⟨hp, hn, t, hr, htok, hst⟩ := h.rad
    have hw : writeRec r = r.name ++ ' ' :: (t ++ ' ' :: valueText r) := by
      unfold writeRec valueText
      rw [hr]
      simp
    unfold lineWrites
    rw [hw, oneTok_blank _ _ hname]
    simp only [h.cls, oneTok_blank _ _ htok.2, hst]
    have hneed : (need (some (n : Int))) = (Except.ok (n : Int) : Except Err Int) := rfl
    cases cls with
    | strPerRad =>
      obtain ⟨t, e⟩ := meaning_scalar h.value (by simp)
      have hv := h.value
      rw [e] at hv
      cases hv
      rw [valueText_one r h.toks t e]
      show Except.ok [(⟨some (toRad n), r.name, .str t⟩ : Write D)] = _
      rw [toRad_natCast n hn]
      rfl
    | intPerRad =>
      obtain ⟨t, e⟩ := meaning_scalar h.value (by simp)
      have hv := h.value
      rw [e] at hv
      simp only [meaning, Option.map_eq_some_iff] at hv
      obtain ⟨x, hx, rfl⟩ := hv
      rw [valueText_one r h.toks t e, hx]
      show Except.ok [(⟨some (toRad n), r.name, .int x⟩ : Write D)] = _
      rw [toRad_natCast n hn]
      rfl
    | intsPerRad =>
      have hv := h.value
      simp only [meaning, Option.map_eq_some_iff] at hv
      obtain ⟨x, hx, rfl⟩ := hv
      rw [hall, mapM_need stoi r.toks x hx]
      show Except.ok [(⟨some (toRad n), r.name, .ints x⟩ : Write D)] = _
      rw [toRad_natCast n hn]
      rfl
    | dblsPerRad =>
      have hv := h.value
      simp only [meaning, Option.map_eq_some_iff] at hv
      obtain ⟨x, hx, rfl⟩ := hv
      rw [hall, mapM_need stod r.toks x hx]
      show Except.ok [(⟨some (toRad n), r.name, .dbls x⟩ : Write D)] = _
      rw [toRad_natCast n hn]
      rfl
    | strsPerRad =>
      have hv := h.value
      simp only [meaning, Option.some.injEq] at hv
      subst hv
      rw [hall]
      show Except.ok [(⟨some (toRad n), r.name, .strs r.toks⟩ : Write D)] = _
      rw [toRad_natCast n hn]
      rfl
    | strShared => cases hp
    | intShared => cases hp
    | dblShared => cases hp
    | traces => cases hp
    | ignored => cases hp

/-- A record together with its reading. -/
structure Item (D : Type) where
  line : Rec
  cls : Cls
  rad : Option Nat
  val : Val D

theorem parse_items (stoi : List Char → Option Int) (stod : List Char → Option D) (n : Nat)
    (items : List (Item D)) (h : ∀ i ∈ items, Good stoi stod i.line i.cls i.rad i.val) :
    parseFile stoi stod n (items.map fun i => writeRec i.line) =
      (items.flatMap fun i => recWrites i.line i.cls i.rad i.val).foldlM write (init n) := by
  unfold parseFile
  generalize (init n : Cfg D) = c
  induction items generalizing c with
  | nil => rfl
  | cons i items ih =>
    rw [List.map_cons, List.foldlM_cons, List.flatMap_cons, List.foldlM_append]
    have e : parseLine stoi stod c (writeRec i.line) =
        (recWrites i.line i.cls i.rad i.val).foldlM write c := by
      unfold parseLine
      rw [line_good stoi stod i.line i.cls i.rad i.val (h i (by simp))]
      rfl
    rw [e]
    cases (recWrites i.line i.cls i.rad i.val).foldlM write c with
    | error x => rfl
    | ok c1 => exact ih (fun j hj => h j (by simp [hj])) c1

theorem lastWrite_append (a b : List (Write D)) (rad : Option Nat) (k : Kind) (nm : List Char)
    (hb : ∀ w ∈ b, ¬ (w.rad = rad ∧ w.val.kind = k ∧ w.name = nm)) :
    lastWrite (a ++ b) rad k nm = lastWrite a rad k nm := by
  unfold lastWrite
  rw [List.filter_append]
  have : b.filter (fun w => decide (w.rad = rad ∧ w.val.kind = k ∧ w.name = nm)) = [] := by
    rw [List.filter_eq_nil_iff]
    intro w hw
    simpa using hb w hw
  rw [this, List.append_nil]

theorem classify_reserved : classify "telemetry_num_traces".toList = none := by decide

theorem classify_traces (nm : List Char) (hnm : classify nm = some .traces) :
    nm = "telemetry_traces".toList := by
  unfold classify at hnm
  repeat' (split at hnm)
  all_goals first
    | assumption
    | cases hnm

theorem recWrites_cases (i : Item D) (w : Write D) (h : w ∈ recWrites i.line i.cls i.rad i.val) :
    w = ⟨i.rad, i.line.name, i.val⟩ ∨
      i.cls = .traces ∧ w.rad = none ∧ w.name = "telemetry_num_traces".toList := by
  unfold recWrites at h
  rcases List.mem_cons.mp h with h | h
  · exact .inl h
  · split at h
    next ht =>
      rw [List.mem_singleton] at h
      exact .inr ⟨ht, by rw [h], by rw [h]⟩
    · cases h

/-- **C57.** A knob file written by `config.py` from records in order, for RAD numbers below the number of
RADs and with each name given once per RAD, is accepted, and reading any knob gives the value it was
written with. The names of the traces come with their number. -/
theorem C57_knob_file_round_trip_partial (stoi : List Char → Option Int) (stod : List Char → Option D) (n : Nat)
    (items : List (Item D)) (h : ∀ i ∈ items, Good stoi stod i.line i.cls i.rad i.val)
    (hr : ∀ i ∈ items, ∀ r, i.rad = some r → r < n)
    (hu : items.Pairwise fun i j => (i.rad, i.line.name) ≠ (j.rad, j.line.name)) :
    ∃ c, parseFile stoi stod n (items.map fun i => writeRec i.line) = .ok c ∧
      ∀ i ∈ items,
        (match i.rad with
         | none => getShared c i.val.kind i.line.name
         | some r => getPerRad c i.val.kind i.line.name r) = .ok i.val ∧
        (i.cls = .traces → getShared c .int "telemetry_num_traces".toList = .ok (.int i.line.toks.length)) := by
  have hacc := (C32_writes_accepted_iff n
    (items.flatMap fun i => recWrites i.line i.cls i.rad i.val)).mpr (by
      intro w hw r hrad
      obtain ⟨i, hi, hwi⟩ := List.mem_flatMap.mp hw
      unfold recWrites at hwi
      rcases List.mem_cons.mp hwi with rfl | hwi
      · exact hr i hi r hrad
      · split at hwi
        · simp only [List.mem_singleton] at hwi
          subst hwi
          cases hrad
        · cases hwi)
  obtain ⟨c, hc⟩ := hacc
  refine ⟨c, by rw [parse_items stoi stod n items h]; exact hc, ?_⟩
  intro i hi
  -- no other record writes to the same place
  have hreserved : ∀ j ∈ items, j.line.name ≠ "telemetry_num_traces".toList := by
    intro j hj e
    have := (h j hj).cls
    rw [e, classify_reserved] at this
    cases this
  obtain ⟨pre, post, rfl⟩ := List.append_of_mem hi
  have hpost : ∀ j ∈ post, (i.rad, i.line.name) ≠ (j.rad, j.line.name) := by
    rw [List.pairwise_append] at hu
    exact (List.pairwise_cons.mp hu.2.1).1
  have hpre : ∀ j ∈ pre, (j.rad, j.line.name) ≠ (i.rad, i.line.name) := by
    rw [List.pairwise_append] at hu
    intro j hj
    exact hu.2.2 j hj i (by simp)
  have read := C32_read_gives_last_write n _ c hc
  have e1 : lastWrite ((pre ++ i :: post).flatMap fun i => recWrites i.line i.cls i.rad i.val) i.rad
      i.val.kind i.line.name = some i.val := by
    have : (pre ++ i :: post).flatMap (fun i => recWrites i.line i.cls i.rad i.val) =
        (pre.flatMap (fun i => recWrites i.line i.cls i.rad i.val) ++ [⟨i.rad, i.line.name, i.val⟩]) ++
          ((if i.cls = .traces then [⟨none, "telemetry_num_traces".toList, .int i.line.toks.length⟩] else []) ++
            post.flatMap fun i => recWrites i.line i.cls i.rad i.val) := by
      rw [List.flatMap_append, List.flatMap_cons]
      simp only [recWrites, List.append_assoc, List.cons_append, List.nil_append]
    rw [this, lastWrite_append, lastWrite_snoc, if_pos ⟨rfl, rfl, rfl⟩]
    intro w hw
    rcases List.mem_append.mp hw with hw | hw
    · have : w.name = "telemetry_num_traces".toList := by
        split at hw
        · rw [List.mem_singleton] at hw; rw [hw]
        · cases hw
      rintro ⟨-, -, e⟩
      exact hreserved i hi (e.symm.trans this)
    · obtain ⟨j, hj, hwj⟩ := List.mem_flatMap.mp hw
      rintro ⟨e, -, e'⟩
      rcases recWrites_cases j w hwj with q | ⟨-, -, q⟩
      · rw [q] at e e'
        exact hpost j hj (Prod.ext e.symm e'.symm)
      · exact hreserved i hi (e'.symm.trans q)
  refine ⟨?_, ?_⟩
  · cases hrad : i.rad with
    | none =>
      rw [hrad] at e1
      simp only
      rw [(read _ _).1, e1]
      rfl
    | some r =>
      rw [hrad] at e1
      simp only
      rw [(read _ _).2 r (hr i hi r hrad), e1]
      rfl
  · intro ht
    have hrad : i.rad = none := by
      cases hrad : i.rad with
      | none => rfl
      | some r =>
        have := (h i hi).rad
        rw [hrad, ht] at this
        exact absurd this.1 (by decide)
    -- a second trace line would have the same name
    have huniq : ∀ j ∈ pre ++ i :: post, j.cls = .traces → j.line.name = i.line.name ∧ j.rad = none := by
      intro j hj hjt
      have c1 := (h j hj).cls
      have c2 := (h i hi).cls
      rw [hjt] at c1
      rw [ht] at c2
      refine ⟨(classify_traces _ c1).trans (classify_traces _ c2).symm, ?_⟩
      cases hq : j.rad with
      | none => rfl
      | some r =>
        have := (h j hj).rad
        rw [hq, hjt] at this
        exact absurd this.1 (by decide)
    have e2 : lastWrite ((pre ++ i :: post).flatMap fun i => recWrites i.line i.cls i.rad i.val) none
        .int "telemetry_num_traces".toList = some (.int i.line.toks.length) := by
      have : (pre ++ i :: post).flatMap (fun i => recWrites i.line i.cls i.rad i.val) =
          (pre.flatMap (fun i => recWrites i.line i.cls i.rad i.val) ++ [⟨i.rad, i.line.name, i.val⟩] ++
            [⟨none, "telemetry_num_traces".toList, .int i.line.toks.length⟩]) ++
              post.flatMap fun i => recWrites i.line i.cls i.rad i.val := by
        rw [List.flatMap_append, List.flatMap_cons]
        simp only [recWrites, if_pos ht, List.append_assoc, List.cons_append, List.nil_append]
      rw [this, lastWrite_append, lastWrite_snoc, if_pos ⟨rfl, rfl, rfl⟩]
      intro w hw
      obtain ⟨j, hj, hwj⟩ := List.mem_flatMap.mp hw
      rintro ⟨-, -, e⟩
      rcases recWrites_cases j w hwj with q | ⟨hjt, -, -⟩
      · rw [q] at e
        exact hreserved j (by simp [hj]) e
      · obtain ⟨q1, q2⟩ := huniq j (by simp [hj]) hjt
        exact hpost j hj (Prod.ext (hrad.trans q2.symm) q1.symm)
    rw [(read _ _).1, e2]
    rfl

/-- Reading of decimal numerals, enough for the examples. -/
def digits (t : List Char) : Option Int :=
  if t ≠ [] ∧ t.all Char.isDigit then some (t.foldl (fun a c => a * 10 + (c.toNat - 48 : Int)) 0) else none

/-- A knob file for two RADs as `config.py` writes it. -/
def sampleItems : List (Item Int) :=
  [⟨⟨"noc_vcs".toList, some "0".toList, false, ["5".toList]⟩, .intsPerRad, some 0, .ints [5]⟩,
   ⟨⟨"noc_vcs".toList, some "1".toList, false, ["3".toList, "4".toList]⟩, .intsPerRad, some 1, .ints [3, 4]⟩,
   ⟨⟨"design_name".toList, some "1".toList, true, ["dlrm".toList]⟩, .strPerRad, some 1, .str "dlrm".toList⟩,
   ⟨⟨"num_rads".toList, none, true, ["2".toList]⟩, .intShared, none, .int 2⟩,
   ⟨⟨"telemetry_traces".toList, none, false, ["a".toList, "b".toList]⟩, .traces, none,
     .strs ["a".toList, "b".toList]⟩]

instance (t : List Char) : Decidable (Token t) := inferInstanceAs (Decidable (_ ∧ _))

example : ∃ c, parseFile digits digits 2 (sampleItems.map fun i => writeRec i.line) = .ok c ∧
    getPerRad c .ints "noc_vcs".toList 1 = .ok (.ints [3, 4]) ∧
    getShared c .int "telemetry_num_traces".toList = .ok (.int 2) := by
  obtain ⟨c, h1, h2⟩ := C57_knob_file_round_trip_partial digits digits 2 sampleItems
    (by
      intro i hi
      simp only [sampleItems, List.mem_cons, List.not_mem_nil, or_false] at hi
      rcases hi with rfl | rfl | rfl | rfl | rfl
      · exact ⟨by decide, by decide, by decide, by decide, by decide, by decide, _, rfl, by decide, by decide⟩
      · exact ⟨by decide, by decide, by decide, by decide, by decide, by decide, _, rfl, by decide, by decide⟩
      · exact ⟨by decide, by decide, by decide, by decide, by decide, by decide, _, rfl, by decide, by decide⟩
      · exact ⟨by decide, by decide, by decide, by decide, by decide⟩
      · exact ⟨by decide, by decide, by decide, by decide, by decide⟩)
    (by decide) (by decide)
  refine ⟨c, h1, (h2 _ (List.mem_cons_of_mem _ (List.mem_cons_self ..))).1, ?_⟩
  exact (h2 _ (List.mem_cons_of_mem _ (List.mem_cons_of_mem _ (List.mem_cons_of_mem _
    (List.mem_cons_of_mem _ (List.mem_cons_self ..)))))).2 rfl

/-- **C57**, blank in a path: only the part before the blank arrives. -/
theorem C57_blank_in_path_violated :
    ∃ c, parseFile digits digits 1
        [writeRec ⟨"radsim_root_dir".toList, none, true, ["/my dir/rad-sim".toList]⟩] = .ok (c : Cfg Int) ∧
      getShared c .str "radsim_root_dir".toList = .ok (.str "/my".toList) := by
  refine ⟨_, rfl, ?_⟩; decide

/-- **C57**, empty line: it counts as an undefined knob and stops the program, wherever it occurs. -/
theorem C57_empty_line_stops_violated (stoi : List Char → Option Int) (stod : List Char → Option D) (n : Nat)
    (items : List (Item D)) (h : ∀ i ∈ items, Good stoi stod i.line i.cls i.rad i.val)
    (hr : ∀ i ∈ items, ∀ r, i.rad = some r → r < n) (rest : List (List Char)) :
    parseFile stoi stod n ((items.map fun i => writeRec i.line) ++ [] :: rest) = .error .exit1 := by
  have hp := parse_items stoi stod n items h
  have hacc := (C32_writes_accepted_iff n
    (items.flatMap fun i => recWrites i.line i.cls i.rad i.val)).mpr (by
      intro w hw r hrad
      obtain ⟨i, hi, hwi⟩ := List.mem_flatMap.mp hw
      unfold recWrites at hwi
      rcases List.mem_cons.mp hwi with rfl | hwi
      · exact hr i hi r hrad
      · split at hwi
        · simp only [List.mem_singleton] at hwi
          subst hwi
          cases hrad
        · cases hwi)
  obtain ⟨c, hc⟩ := hacc
  rw [hc] at hp
  unfold parseFile at hp ⊢
  rw [List.foldlM_append, hp]
  rfl

/-- Who reads which knob: name, type of the getter, whether it is the getter of a RAD. Places:
`rad-sim/sim/main.cpp:27-34`, `rad-sim/sim/design_context.cpp:11-42,302,332`,
`rad-sim/sim/radsim_inter_rad.cpp:15-140`, `rad-sim/sim/dram/mem_controller.cpp:38-96`,
`rad-sim/sim/noc/axis_master_adapter.cpp:24-48`, `rad-sim/sim/noc/aximm_master_adapter.cpp:30`. -/
def consumers : List (List Char × Kind × Bool) :=
  [("telemetry_log_verbosity".toList, .int, false), ("sim_driver_period".toList, .dbl, false),
   ("inter_rad_bw_accept_cycles".toList, .int, false), ("inter_rad_bw_total_cycles".toList, .int, false),
   ("inter_rad_fifo_num_slots".toList, .int, false), ("inter_rad_latency_cycles".toList, .int, false),
   ("radsim_root_dir".toList, .str, false), ("radsim_user_design_root_dir".toList, .str, true),
   ("noc_num_nocs".toList, .int, true), ("noc_num_nodes".toList, .ints, true), ("noc_vcs".toList, .ints, true),
   ("noc_adapters_fifo_size".toList, .ints, true), ("noc_adapters_obuff_size".toList, .ints, true),
   ("dram_queue_sizes".toList, .ints, true), ("dram_config_files".toList, .strs, true),
   ("design_clk_periods".toList, .dbls, true), ("dram_clk_periods".toList, .dbls, true),
   ("noc_clk_period".toList, .dbls, true), ("noc_adapters_clk_period".toList, .dbls, true)]

/-- The class of a name, as far as a reader can tell. -/
def Cls.reader : Cls → Option (Kind × Bool)
  | .strShared => some (.str, false)
  | .strPerRad => some (.str, true)
  | .intShared => some (.int, false)
  | .intPerRad => some (.int, true)
  | .intsPerRad => some (.ints, true)
  | .dblShared => some (.dbl, false)
  | .dblsPerRad => some (.dbls, true)
  | .strsPerRad => some (.strs, true)
  | .traces => some (.strs, false)
  | .ignored => none

theorem consumers_classified : ∀ e ∈ consumers, (classify e.1).bind Cls.reader = some e.2 := by decide

theorem meaning_kind (stoi : List Char → Option Int) (stod : List Char → Option D) (cl : Cls)
    (ts : List (List Char)) (v : Val D) (h : meaning stoi stod cl ts = some v) :
    ∃ p, cl.reader = some (v.kind, p) ∧ cl.perRad = p := by
  unfold meaning at h
  split at h
  all_goals first
    | (cases h; exact ⟨_, rfl, rfl⟩)
    | (rw [Option.map_eq_some_iff] at h; obtain ⟨x, -, rfl⟩ := h; exact ⟨_, rfl, rfl⟩)
    | (cases h; done)

/-- **C57.** Readers ask for a knob with the type and scope under which the file stored it. -/
theorem C57_readers_agree (stoi : List Char → Option Int) (stod : List Char → Option D) (i : Item D)
    (h : Good stoi stod i.line i.cls i.rad i.val) (name : List Char) (k : Kind) (perRad : Bool)
    (hc : (name, k, perRad) ∈ consumers) (hn : i.line.name = name) :
    i.val.kind = k ∧ i.rad.isSome = perRad := by
  have h1 := consumers_classified _ hc
  obtain ⟨p, h2, h3⟩ := meaning_kind stoi stod _ _ _ h.value
  subst hn
  simp only [h.cls, Option.bind_some] at h1
  rw [h2] at h1
  cases h1
  refine ⟨rfl, ?_⟩
  have := h.rad
  cases hr : i.rad with
  | none => rw [hr] at this; rw [← h3]; exact this.2.symm
  | some n => rw [hr] at this; rw [← h3]; exact this.1.symm

example : ∃ i ∈ sampleItems, ∃ e ∈ consumers, e.1 = i.line.name := by decide

end RadSim.Config
