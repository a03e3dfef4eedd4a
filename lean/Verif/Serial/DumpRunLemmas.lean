import Verif.Serial.DumpRun
namespace Verif.Serial
open Verif.Path Verif.Enums Spec

variable {σ : Type}

/-! ### The same results as `dump` -/

/-- The run as a result. -/
def Output.res (r : Output σ) : Res (List (Ev σ)) :=
  match r.2 with
  | none => .ok r.1
  | some e => .error e

theorem res_say (x : Ev σ) : (tell x).res = .ok [x] := rfl
theorem res_raise (e : Exc) : (raise e : Output σ).res = .error e := rfl
theorem res_andThen (a b : Output σ) : (a.andThen b).res =
    match a.res with
    | .error e => .error e
    | .ok x => b.res.map fun y => x ++ y := by
  obtain ⟨a, _ | e⟩ := a <;> obtain ⟨b, _ | e'⟩ := b <;> rfl
theorem res_wguardRun {α : Type} (r : Res α) (k : α → Output σ) : (ifFine r k).res =
    match r with
    | .error e => .error e
    | .ok a => (k a).res := by cases r <;> rfl

theorem res_weachRun {α : Type} {f : α → Output σ} {g : α → Res (List (Ev σ))} (h : ∀ x, (f x).res = g x) :
    ∀ l, (writeEach f l).res = (mapAll g l).map List.flatten
  | [] => rfl
  | x :: xs => by
    simp only [writeEach, res_andThen, mapAll, h, res_weachRun h xs]
    cases g x with
    | error e => rfl
    | ok y => cases mapAll g xs <;> rfl

theorem res_wseqRun {r : Output σ} {l : Res (List (List (Ev σ)))} (h : r.res = l.map List.flatten) : (writeSeq r).res = inSeq l := by
  simp only [writeSeq, res_andThen, res_say, h, inSeq]
  cases l <;> simp [Except.map]

theorem res_wmapRun {r : Output σ} {l : Res (List (Ev σ))} (h : r.res = l) : (writeMap r).res = inMap l := by
  simp only [writeMap, res_andThen, res_say, h, inMap]
  cases l <;> simp [Except.map]

theorem res_wentriesRun {s : Bool} {c : Str → Res Unit} {f : Value → Output σ} {g : Value → Res (List (Ev σ))}
    (h : ∀ x, (f x).res = g x) : ∀ l, (writeEntries s c f l).res = dumpEntries s c g l
  | [] => rfl
  | (k, v) :: es => by
    simp only [writeEntries, res_wguardRun, dumpEntries]
    cases c k with
    | error e => rfl
    | ok u =>
      simp only
      split
      · exact res_wentriesRun h es
      · simp only [res_andThen, res_say, h, res_wentriesRun h es]
        cases g v with
        | error e => rfl
        | ok y => cases dumpEntries s c g es <;> simp [Except.map]

mutual
theorem res_dumpRun (B : Backend σ) (s : Bool) : ∀ (t : Ty) (v : Value), (dumpRun B s t v).res = dump B s t v
  | .leaf l, v => by cases v <;> rfl
  | .enum e, v => by
    cases v <;> try rfl
    rename_i a
    cases a <;> try rfl
    simp only [dumpRun, dump, res_wguardRun]
    cases enumName e _ <;> rfl
  | .rawEnum t, v => by cases v <;> rfl
  | .enumSet e, v => by
    cases v <;> try rfl
    simp only [dumpRun, dump]
    refine res_wseqRun (res_weachRun (fun x => ?_) _)
    simp only [res_wguardRun]
    cases enumName e _ <;> rfl
  | .opt t, v => by
    cases v <;> try rfl
    rename_i v
    cases v with
    | none => rfl
    | some v => simp only [dumpRun, dump]; exact res_dumpRun B s t v
  | .vec t, v => by
    cases v <;> try rfl
    exact res_wseqRun (res_weachRun (res_dumpRun B s t) _)
  | .arr _ t, v => by
    cases v <;> try rfl
    exact res_wseqRun (res_weachRun (res_dumpRun B s t) _)
  | .map t, v => by
    cases v <;> try rfl
    exact res_wmapRun (res_wentriesRun (res_dumpRun B s t) _)
  | .tuple _ ts, v => by
    cases v <;> try rfl
    exact res_wseqRun (res_wtupleRun B s ts _)
  | .record _ fs, v => by
    cases v <;> try rfl
    simp only [dumpRun, dump]
    rw [res_wmapRun rfl, res_wguardRun]
    cases reservedNames fs with
    | error e => rfl
    | ok r => simp only [res_wfieldsRun B s r fs]
theorem res_wtupleRun (B : Backend σ) (s : Bool) : ∀ (ts : Tys) (vs : List Value),
    (writeTuple B s ts vs).res = (dumpTuple B s ts vs).map List.flatten
  | .nil, vs => by cases vs <;> rfl
  | .cons t ts, vs => by
    cases vs with
    | nil => rfl
    | cons v vs =>
      simp only [writeTuple, dumpTuple, res_andThen, res_dumpRun B s t v, res_wtupleRun B s ts vs]
      cases dump B s t v with
      | error e => rfl
      | ok d => cases dumpTuple B s ts vs <;> rfl
theorem res_wfieldsRun (B : Backend σ) (s : Bool) (r : Option (List Str)) : ∀ (fs : Fields) (vs : List Value),
    (writeFields B s r fs vs).res = dumpFields B s r fs vs
  | .nil, vs => by cases vs <;> rfl
  | .cons f t fs, vs => by
    cases vs with
    | nil => rfl
    | cons v vs =>
      simp only [writeFields, dumpFields, res_andThen, res_wfieldsRun B s r fs vs]
      have h : ∀ {a : Output σ} {b : Res (List (Ev σ))}, a.res = b →
          (match a.res with
          | .error e => .error e
          | .ok x => (dumpFields B s r fs vs).map fun y => x ++ y : Res (List (Ev σ))) =
          match b with
          | .error e => .error e
          | .ok evs => (dumpFields B s r fs vs).map fun rest => evs ++ rest := by
        rintro a b rfl; rfl
      apply h
      split
      · rfl
      split
      · rfl
      split
      · exact res_wextrasRun B s r t v
      split
      · exact res_wflatRun B s r t v
      · simp only [res_andThen, res_say, res_dumpRun B s t v]
        cases dump B s t v <;> rfl
theorem res_wextrasRun (B : Backend σ) (s : Bool) (r : Option (List Str)) : ∀ (t : Ty) (v : Value),
    (writeExtras B s r t v).res = dumpExtras B s r t v
  | .map t, v => by
    cases v <;> try rfl
    exact res_wentriesRun (res_dumpRun B s t) _
  | .leaf _, _ | .enum _, _ | .rawEnum _, _ | .enumSet _, _ | .opt _, _ | .vec _, _ | .arr _ _, _ | .tuple _ _, _
  | .record _ _, _ => rfl
theorem res_wflatRun (B : Backend σ) (s : Bool) (r : Option (List Str)) : ∀ (t : Ty) (v : Value),
    (writeFlat B s r t v).res = dumpFlat B s r t v
  | .record _ fs, v => by
    cases v <;> try rfl
    exact res_wfieldsRun B s r fs _
  | .leaf _, _ | .enum _, _ | .rawEnum _, _ | .enumSet _, _ | .opt _, _ | .vec _, _ | .arr _ _, _ | .tuple _ _, _
  | .map _, _ => rfl
end

/-! ### What is open when it throws -/

/-- `end_sequence` and `end_map`. -/
def closing : Ev σ → Bool
  | .endMap => true
  | .endSeq => true
  | _ => false

/-- What a value writes. -/
def Fine (r : Output σ) : Prop :=
  match r.2 with
  | none => ∃ d, r.1 = events d
  | some .stuck => True
  | some _ => ∃ d rest, rest.all closing = true ∧ r.1 ++ .endMap :: rest = events d

/-- What the elements of a sequence write. -/
def FineA (r : Output σ) : Prop :=
  match r.2 with
  | none => ∃ ds, r.1 = eventsArr ds
  | some .stuck => True
  | some _ => ∃ ds rest, rest.all closing = true ∧ r.1 ++ .endMap :: rest = eventsArr ds

/-- What the members of a map write. -/
def FineM (r : Output σ) : Prop :=
  match r.2 with
  | none => ∃ ms, r.1 = eventsObj ms
  | some .stuck => True
  | some _ => ∃ ms rest, rest.all closing = true ∧ (rest = [] ∨ ∃ r', rest = .endMap :: r') ∧ r.1 ++ rest = eventsObj ms

theorem eventsArr_append : ∀ a b : List (Doc σ), eventsArr (a ++ b) = eventsArr a ++ eventsArr b
  | [], b => rfl
  | d :: a, b => by simp [eventsArr, eventsArr_append a b]
theorem eventsObj_app : ∀ a b : List (Str × Doc σ), eventsObj (a ++ b) = eventsObj a ++ eventsObj b
  | [], b => rfl
  | (k, d) :: a, b => by simp [eventsObj, eventsObj_app a b]

theorem FineA.nil : FineA (([], none) : Output σ) := ⟨[], rfl⟩
theorem FineM.nil : FineM (([], none) : Output σ) := ⟨[], rfl⟩

theorem FineM.raise (e : Exc) : FineM (raise e : Output σ) := by
  cases e <;> first | trivial | exact ⟨[], [], rfl, .inl rfl, rfl⟩

theorem Fine.cons {a b : Output σ} (ha : Fine a) (hb : FineA b) : FineA (a.andThen b) := by
  obtain ⟨x, ea⟩ := a
  cases ea with
  | none =>
    obtain ⟨d, rfl : x = _⟩ := ha
    obtain ⟨y, eb⟩ := b
    cases eb with
    | none => obtain ⟨ds, rfl : y = _⟩ := hb; exact ⟨d :: ds, rfl⟩
    | some e =>
      cases e <;> first | trivial | skip
      all_goals
        obtain ⟨ds, rest, h1, h2⟩ := hb
        refine ⟨d :: ds, rest, h1, ?_⟩
        simp only [eventsArr, ← h2, Output.andThen, List.append_assoc]
  | some e =>
    cases e <;> first | trivial | skip
    all_goals
      obtain ⟨d, rest, h1, h2⟩ := ha
      refine ⟨[d], rest, h1, ?_⟩
      simp only [Output.andThen, eventsArr, List.append_nil]
      exact h2

theorem FineM.append {a b : Output σ} (ha : FineM a) (hb : FineM b) : FineM (a.andThen b) := by
  obtain ⟨x, ea⟩ := a
  cases ea with
  | none =>
    obtain ⟨d, rfl : x = _⟩ := ha
    obtain ⟨y, eb⟩ := b
    cases eb with
    | none => obtain ⟨ds, rfl : y = _⟩ := hb; exact ⟨d ++ ds, (eventsObj_app d ds).symm⟩
    | some e =>
      cases e <;> first | trivial | skip
      all_goals
        obtain ⟨ds, rest, h1, h3, h2⟩ := hb
        refine ⟨d ++ ds, rest, h1, h3, ?_⟩
        simp only [eventsObj_app, ← h2, Output.andThen, List.append_assoc]
  | some e =>
    cases e <;> first | trivial | exact ha

theorem Fine.member {a : Output σ} (k : Str) (ha : Fine a) : FineM ((tell (.key k)).andThen a) := by
  obtain ⟨x, ea⟩ := a
  cases ea with
  | none =>
    obtain ⟨d, rfl : x = _⟩ := ha
    exact ⟨[(k, d)], by simp [Output.andThen, tell, eventsObj]⟩
  | some e =>
    cases e <;> first | trivial | skip
    all_goals
      obtain ⟨d, rest, h1, h2⟩ := ha
      refine ⟨[(k, d)], .endMap :: rest, by simpa [closing] using h1, .inr ⟨rest, rfl⟩, ?_⟩
      simp only at h2
      simp [Output.andThen, tell, eventsObj, ← h2]

theorem FineA.writeSeq {a : Output σ} (ha : FineA a) : Fine (writeSeq a) := by
  obtain ⟨x, ea⟩ := a
  cases ea with
  | none =>
    obtain ⟨ds, rfl : x = _⟩ := ha
    exact ⟨.arr ds, by simp [Serial.writeSeq, Output.andThen, tell, events]⟩
  | some e =>
    cases e <;> first | trivial | skip
    all_goals
      obtain ⟨ds, rest, h1, h2⟩ := ha
      refine ⟨.arr ds, rest ++ [.endSeq], by simpa [closing] using h1, ?_⟩
      simp only at h2
      simp [Serial.writeSeq, Output.andThen, tell, events, ← h2]

theorem FineM.writeMap {a : Output σ} (ha : FineM a) : Fine (writeMap a) := by
  obtain ⟨x, ea⟩ := a
  cases ea with
  | none =>
    obtain ⟨ms, rfl : x = _⟩ := ha
    exact ⟨.obj ms, by simp [Serial.writeMap, Output.andThen, tell, events]⟩
  | some e =>
    cases e <;> first | trivial | skip
    all_goals
      obtain ⟨ms, rest, h1, h3, h2⟩ := ha
      simp only at h2
      rcases h3 with rfl | ⟨r', rfl⟩
      · refine ⟨.obj ms, [], rfl, ?_⟩
        simp [Serial.writeMap, Output.andThen, tell, events, ← h2]
      · refine ⟨.obj ms, r' ++ [.endMap], by simpa [closing] using h1, ?_⟩
        simp [Serial.writeMap, Output.andThen, tell, events, ← h2]

theorem fine_weachRun {α : Type} {f : α → Output σ} (h : ∀ x, Fine (f x)) : ∀ l, FineA (writeEach f l)
  | [] => .nil
  | x :: xs => (h x).cons (fine_weachRun h xs)

theorem fine_wentriesRun {s : Bool} {c : Str → Res Unit} {f : Value → Output σ} (h : ∀ x, Fine (f x)) :
    ∀ l, FineM (writeEntries s c f l)
  | [] => .nil
  | (k, v) :: es => by
    simp only [writeEntries, ifFine]
    split
    · exact .raise _
    · split
      · exact fine_wentriesRun h es
      · exact ((h v).member k).append (fine_wentriesRun h es)

theorem enumName_error {e : EnumTy} {n : Int} {x : Exc} (h : enumName e n = .error x) : x = .stuck := by
  simp only [enumName] at h
  split at h
  · cases h; rfl
  · cases h

theorem fine_enum (B : Backend σ) (e : EnumTy) (n : Int) :
    Fine (ifFine (enumName e n) fun s => tell (.scalar (B.dumpLeaf .str (.str s)))) := by
  simp only [ifFine]
  split
  · rename_i h; rw [enumName_error h]; trivial
  · exact ⟨.scalar _, rfl⟩

mutual
theorem fine_dumpRun (B : Backend σ) (s : Bool) : ∀ (t : Ty) (v : Value), Fine (dumpRun B s t v)
  | .leaf l, v => by cases v <;> first | trivial | exact ⟨.scalar _, rfl⟩
  | .enum e, v => by
    cases v <;> try trivial
    rename_i a
    cases a <;> try trivial
    exact fine_enum B e _
  | .rawEnum t, v => by cases v <;> first | trivial | exact ⟨.scalar _, rfl⟩
  | .enumSet e, v => by
    cases v <;> try trivial
    exact (fine_weachRun (fun x => fine_enum B e x) _).writeSeq
  | .opt t, v => by
    cases v <;> try trivial
    rename_i v
    cases v with
    | none => exact ⟨.null, rfl⟩
    | some v => simp only [dumpRun]; exact fine_dumpRun B s t v
  | .vec t, v => by
    cases v <;> try trivial
    exact (fine_weachRun (fine_dumpRun B s t) _).writeSeq
  | .arr _ t, v => by
    cases v <;> try trivial
    exact (fine_weachRun (fine_dumpRun B s t) _).writeSeq
  | .map t, v => by
    cases v <;> try trivial
    exact (fine_wentriesRun (fine_dumpRun B s t) _).writeMap
  | .tuple _ ts, v => by
    cases v <;> try trivial
    exact (fine_wtupleRun B s ts _).writeSeq
  | .record _ fs, v => by
    cases v <;> try trivial
    simp only [dumpRun, ifFine]
    refine FineM.writeMap ?_
    split
    · exact .raise _
    · exact fine_wfieldsRun B s _ fs _
theorem fine_wtupleRun (B : Backend σ) (s : Bool) : ∀ (ts : Tys) (vs : List Value), FineA (writeTuple B s ts vs)
  | .nil, vs => by cases vs <;> first | exact .nil | trivial
  | .cons t ts, vs => by
    cases vs with
    | nil => trivial
    | cons v vs => exact (fine_dumpRun B s t v).cons (fine_wtupleRun B s ts vs)
theorem fine_wfieldsRun (B : Backend σ) (s : Bool) (r : Option (List Str)) : ∀ (fs : Fields) (vs : List Value),
    FineM (writeFields B s r fs vs)
  | .nil, vs => by cases vs <;> first | exact .nil | trivial
  | .cons f t fs, vs => by
    cases vs with
    | nil => trivial
    | cons v vs =>
      simp only [writeFields]
      refine FineM.append ?_ (fine_wfieldsRun B s r fs vs)
      split
      · exact .nil
      split
      · exact .nil
      split
      · exact fine_wextrasRun B s r t v
      split
      · exact fine_wflatRun B s r t v
      · exact (fine_dumpRun B s t v).member _
theorem fine_wextrasRun (B : Backend σ) (s : Bool) (r : Option (List Str)) : ∀ (t : Ty) (v : Value),
    FineM (writeExtras B s r t v)
  | .map t, v => by
    cases v <;> try trivial
    exact fine_wentriesRun (fine_dumpRun B s t) _
  | .leaf _, _ | .enum _, _ | .rawEnum _, _ | .enumSet _, _ | .opt _, _ | .vec _, _ | .arr _ _, _ | .tuple _ _, _
  | .record _ _, _ => trivial
theorem fine_wflatRun (B : Backend σ) (s : Bool) (r : Option (List Str)) : ∀ (t : Ty) (v : Value),
    FineM (writeFlat B s r t v)
  | .record _ fs, v => by
    cases v <;> try trivial
    exact fine_wfieldsRun B s r fs _
  | .leaf _, _ | .enum _, _ | .rawEnum _, _ | .enumSet _, _ | .opt _, _ | .vec _, _ | .arr _ _, _ | .tuple _ _, _
  | .map _, _ => trivial
end

/-! ### A reader of events -/

/-- What a reader waits for: the one value, an element, a name, the value of a name. -/
inductive Frame where
  | one
  | elem
  | name
  | val

/-- After a value. -/
def put : List Frame → Option (List Frame)
  | .one :: r => some r
  | .elem :: r => some (.elem :: r)
  | .val :: r => some (.name :: r)
  | .name :: _ => none
  | [] => none

/-- After an event. -/
def hear : List Frame → Ev σ → Option (List Frame)
  | st, .null => put st
  | st, .scalar _ => put st
  | st, .beginSeq => (put st).map (.elem :: ·)
  | st, .beginMap => (put st).map (.name :: ·)
  | .elem :: r, .endSeq => some r
  | .name :: r, .endMap => some r
  | .name :: r, .key _ => some (.val :: r)
  | _, _ => none

/-- After events. -/
def hears : List Frame → List (Ev σ) → Option (List Frame)
  | st, [] => some st
  | st, x :: xs => (hear st x).bind fun st => hears st xs

theorem hears_append : ∀ (a b : List (Ev σ)) (st : List Frame),
    hears st (a ++ b) = (hears st a).bind fun st => hears st b
  | [], b, st => rfl
  | x :: a, b, st => by
    simp only [List.cons_append, hears]
    cases hear st x with
    | none => rfl
    | some st => exact hears_append a b st

mutual
theorem hears_events : ∀ (d : Doc σ) (st : List Frame), hears st (events d) = put st
  | .null, st => by simp only [events, hears, hear]; cases put st <;> rfl
  | .scalar s, st => by simp only [events, hears, hear]; cases put st <;> rfl
  | .arr l, st => by
    simp only [events, List.cons_append, hears, hear]
    cases put st with
    | none => rfl
    | some st => simp [hears_append, hears_arr l, hears, hear]
  | .obj ms, st => by
    simp only [events, List.cons_append, hears, hear]
    cases put st with
    | none => rfl
    | some st => simp [hears_append, hears_obj ms, hears, hear]
theorem hears_arr : ∀ (l : List (Doc σ)) (st : List Frame), hears (.elem :: st) (eventsArr l) = some (.elem :: st)
  | [], st => rfl
  | d :: ds, st => by simp [eventsArr, hears_append, hears_events d, put, hears_arr ds]
theorem hears_obj : ∀ (l : List (Str × Doc σ)) (st : List Frame), hears (.name :: st) (eventsObj l) = some (.name :: st)
  | [], st => rfl
  | (k, d) :: ds, st => by simp [eventsObj, hears, hear, hears_append, hears_events d, put, hears_obj ds]
end

/-- No document's events continue another's. -/
theorem events_prefix_free {d d' : Doc σ} {r : List (Ev σ)} (h : events d ++ r = events d') : r = [] := by
  have := congrArg (hears [.one]) h
  rw [hears_append, hears_events, hears_events] at this
  cases r with
  | nil => rfl
  | cons x xs => cases x <;> simp [put, hears, hear] at this

/-- Before an `end_map` the reader waits for a name. -/
theorem hears_open {w rest : List (Ev σ)} {d : Doc σ} (h : w ++ .endMap :: rest = events d) :
    ∃ st, hears [.one] w = some (.name :: st) := by
  have := congrArg (hears [.one]) h
  rw [hears_append, hears_events] at this
  cases hw : hears [.one] w with
  | none => rw [hw] at this; cases this
  | some st =>
    rw [hw] at this
    match st with
    | .name :: st => exact ⟨st, rfl⟩
    | [] => cases this
    | .one :: _ => cases this
    | .elem :: _ => cases this
    | .val :: _ => cases this

end Verif.Serial
