import Verif.Serial.Spec
/-
Lemmas: `dump` tells the writer what the document of `ser` describes.
-/
namespace Verif.Serial
open Verif.Path Verif.Enums Spec

variable {σ : Type}

theorem map_map {α β γ : Type} (r : Res α) (f : α → β) (g : β → γ) :
    (r.map f).map g = r.map fun a => g (f a) := by cases r <;> rfl

theorem map_id' {α : Type} (r : Res α) : (r.map fun a => a) = r := by cases r <;> rfl

theorem mapAll_ok {α β : Type} (f : α → Res β) : ∀ (l : List α) (ys : List β),
    mapAll f l = .ok ys ↔ Each (fun x y => f x = .ok y) l ys
  | [], ys => by
    simp only [mapAll, Except.ok.injEq]
    constructor
    · rintro rfl; exact .nil
    · intro h; cases h; rfl
  | x :: xs, ys => by
    simp only [mapAll]
    cases hx : f x with
    | error e => simp; intro h; cases h; simp_all
    | ok y =>
      simp only
      cases hs : mapAll f xs with
      | error e =>
        simp only
        constructor
        · intro h; cases h
        · intro h
          cases h with
          | cons h1 h2 => rw [← mapAll_ok f] at h2; rw [hs] at h2; cases h2
      | ok zs =>
        simp only [Except.ok.injEq]
        constructor
        · rintro rfl
          exact .cons hx ((mapAll_ok f xs zs).1 hs)
        · intro h
          cases h with
          | cons h1 h2 =>
            rw [hx] at h1; cases h1
            rw [← mapAll_ok f, hs] at h2; cases h2; rfl

theorem mapAll_map {α β γ : Type} (f : α → Res β) (g : β → γ) : ∀ l : List α,
    mapAll (fun x => (f x).map g) l = (mapAll f l).map (List.map g)
  | [] => rfl
  | x :: xs => by
    simp only [mapAll, mapAll_map f g xs]
    cases f x with
    | error e => rfl
    | ok y => cases mapAll f xs <;> rfl

theorem eventsArr_eq : ∀ l : List (Doc σ), eventsArr l = (l.map events).flatten
  | [] => by simp [eventsArr]
  | d :: ds => by simp [eventsArr, eventsArr_eq ds]

theorem eventsObj_append : ∀ l m : List (Str × Doc σ), eventsObj (l ++ m) = eventsObj l ++ eventsObj m
  | [], m => by simp [eventsObj]
  | (k, d) :: ds, m => by simp [eventsObj, eventsObj_append ds]

theorem serEntries_acc {B : Backend σ} (hB : Lawful B) (s : Bool) (c : Str → Res Unit)
    (f : Value → Res (Doc σ)) : ∀ (es : List (Str × Value)) (out : List (Str × Doc σ)),
    serEntries B s c f es out = (serEntries B s c f es []).map (out ++ ·)
  | [], out => by simp [serEntries, Except.map]
  | (k, v) :: es, out => by
    simp only [serEntries]
    cases c k with
    | error e => rfl
    | ok u =>
      simp only
      split
      · exact serEntries_acc hB s c f es out
      · cases f v with
        | error e => rfl
        | ok d =>
          simp only [hB.add]
          rw [serEntries_acc hB s c f es (out ++ _), serEntries_acc hB s c f es ([] ++ _), map_map]
          simp

theorem dumpEntries_eq {B : Backend σ} (hB : Lawful B) (s : Bool) (c : Str → Res Unit)
    (f : Value → Res (Doc σ)) : ∀ (es : List (Str × Value)),
    dumpEntries s c (fun v => (f v).map events) es = (serEntries B s c f es []).map eventsObj
  | [] => by simp [serEntries, dumpEntries, Except.map, eventsObj]
  | (k, v) :: es => by
    simp only [serEntries, dumpEntries]
    cases c k with
    | error e => rfl
    | ok u =>
      simp only
      split
      · exact dumpEntries_eq hB s c f es
      · cases f v with
        | error e => rfl
        | ok d =>
          simp only [hB.add]
          rw [serEntries_acc hB s c f es ([] ++ _), dumpEntries_eq hB s c f es, map_map]
          simp only [Except.map]
          cases serEntries B s c f es [] <;> simp [Except.map, eventsObj]

mutual
theorem addFields_acc {B : Backend σ} (hB : Lawful B) (s : Bool) (r : Option (List Str)) :
    ∀ (fs : Fields) (vs : List Value) (out : List (Str × Doc σ)),
    addFields B s r fs vs out = (addFields B s r fs vs []).map (out ++ ·)
  | .nil, vs, out => by cases vs <;> simp [addFields, Except.map]
  | .cons f t fs, vs, out => by
    cases vs with
    | nil => simp [addFields, Except.map]
    | cons v vs =>
      simp only [addFields]
      by_cases h1 : f.skipSer = true
      · simp only [h1, if_true]
        exact addFields_acc hB s r fs vs out
      simp only [if_neg h1]
      by_cases h2 : skipField f s v = true
      · simp only [h2, if_true]
        exact addFields_acc hB s r fs vs out
      simp only [if_neg h2]
      by_cases h3 : f.extra = true
      · simp only [h3, if_true]
        rw [addExtras_acc hB s r t v out]
        cases addExtras B s r t v [] with
        | error e => rfl
        | ok o =>
          simp only [Except.map]
          rw [addFields_acc hB s r fs vs (out ++ o), addFields_acc hB s r fs vs o]
          cases addFields B s r fs vs [] <;> simp [Except.map]
      simp only [if_neg h3]
      by_cases h4 : f.flatten = true
      · simp only [h4, if_true]
        rw [addFlat_acc hB s r t v out]
        cases addFlat B s r t v [] with
        | error e => rfl
        | ok o =>
          simp only [Except.map]
          rw [addFields_acc hB s r fs vs (out ++ o), addFields_acc hB s r fs vs o]
          cases addFields B s r fs vs [] <;> simp [Except.map]
      simp only [if_neg h4]
      · cases ser B s t v with
        | error e => rfl
        | ok d =>
          simp only [Except.map, hB.add]
          rw [addFields_acc hB s r fs vs (out ++ _), addFields_acc hB s r fs vs ([] ++ _)]
          cases addFields B s r fs vs [] <;> simp [Except.map]
theorem addExtras_acc {B : Backend σ} (hB : Lawful B) (s : Bool) (r : Option (List Str)) :
    ∀ (t : Ty) (v : Value) (out : List (Str × Doc σ)),
    addExtras B s r t v out = (addExtras B s r t v []).map (out ++ ·) := by
  intro t v out
  cases t <;> try rfl
  case map t =>
    cases v <;> try rfl
    simp only [addExtras]
    exact serEntries_acc hB s _ _ _ out
theorem addFlat_acc {B : Backend σ} (hB : Lawful B) (s : Bool) (r : Option (List Str)) :
    ∀ (t : Ty) (v : Value) (out : List (Str × Doc σ)),
    addFlat B s r t v out = (addFlat B s r t v []).map (out ++ ·)
  | .record _ fs, v, out => by
    cases v <;> try rfl
    simp only [addFlat]
    exact addFields_acc hB s r fs _ out
  | .leaf _, _, _ | .enum _, _, _ | .rawEnum _, _, _ | .enumSet _, _, _ | .opt _, _, _
  | .vec _, _, _ | .arr _ _, _, _ | .map _, _, _ | .tuple _ _, _, _ => rfl
end

theorem inSeq_eq (r : Res (List (Doc σ))) :
    inSeq (r.map (List.map events)) = (r.map Doc.arr).map events := by
  cases r with
  | error e => rfl
  | ok l => simp [inSeq, Except.map, events, eventsArr_eq]

mutual
theorem dump_eq {B : Backend σ} (hB : Lawful B) (s : Bool) : ∀ (t : Ty) (v : Value),
    dump B s t v = (ser B s t v).map events
  | .leaf l, v => by cases v <;> simp [dump, ser, Except.map, events, hB.dump]
  | .enum e, v => by
    cases v <;> try rfl
    rename_i a
    cases a <;> try rfl
    simp only [dump, ser, map_map, events, hB.dump]
  | .rawEnum t, v => by cases v <;> simp [dump, ser, Except.map, events, hB.dump]
  | .enumSet e, v => by
    cases v <;> try rfl
    simp only [dump, ser, hB.dump]
    rw [← inSeq_eq, ← mapAll_map]
    simp only [map_map, events]
  | .opt t, v => by
    cases v <;> try rfl
    rename_i v
    cases v with
    | none => simp [dump, ser, Except.map, events]
    | some v => simp only [dump, ser]; exact dump_eq hB s t v
  | .vec t, v => by
    cases v <;> try rfl
    simp only [dump, ser, funext (dump_eq hB s t)]
    rw [← inSeq_eq, ← mapAll_map]
  | .arr _ t, v => by
    cases v <;> try rfl
    simp only [dump, ser, funext (dump_eq hB s t)]
    rw [← inSeq_eq, ← mapAll_map]
  | .map t, v => by
    cases v <;> try rfl
    simp only [dump, ser, funext (dump_eq hB s t)]
    rw [dumpEntries_eq hB, inMap, map_map, map_map]
    simp only [events]
  | .tuple _ ts, v => by
    cases v <;> try rfl
    simp only [dump, ser]
    rw [dumpTuple_eq hB, inSeq_eq]
  | .record _ fs, v => by
    cases v <;> try rfl
    simp only [dump, ser]
    cases reservedNames fs with
    | error e => rfl
    | ok r =>
      simp only [inMap]
      rw [dumpFields_eq hB, map_map, map_map]
      simp only [events]
theorem dumpTuple_eq {B : Backend σ} (hB : Lawful B) (s : Bool) : ∀ (ts : Tys) (vs : List Value),
    dumpTuple B s ts vs = (serTuple B s ts vs).map (List.map events)
  | .nil, vs => by cases vs <;> rfl
  | .cons t ts, vs => by
    cases vs with
    | nil => rfl
    | cons v vs =>
      simp only [dumpTuple, serTuple, dump_eq hB s t v, dumpTuple_eq hB s ts vs]
      cases ser B s t v with
      | error e => rfl
      | ok d => cases serTuple B s ts vs <;> rfl
theorem dumpFields_eq {B : Backend σ} (hB : Lawful B) (s : Bool) (r : Option (List Str)) :
    ∀ (fs : Fields) (vs : List Value),
    dumpFields B s r fs vs = (addFields B s r fs vs []).map eventsObj
  | .nil, vs => by cases vs <;> simp [dumpFields, addFields, Except.map, eventsObj]
  | .cons f t fs, vs => by
    cases vs with
    | nil => rfl
    | cons v vs =>
      simp only [dumpFields, addFields, dumpFields_eq hB s r fs vs]
      by_cases h1 : f.skipSer = true
      · simp only [h1, if_true]
        simp [map_map]
      simp only [if_neg h1]
      by_cases h2 : skipField f s v = true
      · simp only [h2, if_true]
        simp [map_map]
      simp only [if_neg h2]
      by_cases h3 : f.extra = true
      · simp only [h3, if_true]
        rw [dumpExtras_eq hB s r t v]
        cases addExtras B s r t v [] with
        | error e => rfl
        | ok o =>
          simp only [Except.map]
          rw [addFields_acc hB s r fs vs o]
          cases addFields B s r fs vs [] <;> simp [Except.map, eventsObj_append]
      simp only [if_neg h3]
      by_cases h4 : f.flatten = true
      · simp only [h4, if_true]
        rw [dumpFlat_eq hB s r t v]
        cases addFlat B s r t v [] with
        | error e => rfl
        | ok o =>
          simp only [Except.map]
          rw [addFields_acc hB s r fs vs o]
          cases addFields B s r fs vs [] <;> simp [Except.map, eventsObj_append]
      simp only [if_neg h4]
      · rw [dump_eq hB s t v]
        cases ser B s t v with
        | error e => rfl
        | ok d =>
          simp only [Except.map, hB.add]
          rw [addFields_acc hB s r fs vs ([] ++ _)]
          cases addFields B s r fs vs [] <;> simp [Except.map, eventsObj_append, eventsObj]
theorem dumpExtras_eq {B : Backend σ} (hB : Lawful B) (s : Bool) (r : Option (List Str)) :
    ∀ (t : Ty) (v : Value), dumpExtras B s r t v = (addExtras B s r t v []).map eventsObj
  | .map t, v => by
    cases v <;> try rfl
    simp only [dumpExtras, addExtras, funext (dump_eq hB s t)]
    exact dumpEntries_eq hB s _ _ _
  | .leaf _, _ | .enum _, _ | .rawEnum _, _ | .enumSet _, _ | .opt _, _
  | .vec _, _ | .arr _ _, _ | .record _ _, _ | .tuple _ _, _ => rfl
theorem dumpFlat_eq {B : Backend σ} (hB : Lawful B) (s : Bool) (r : Option (List Str)) :
    ∀ (t : Ty) (v : Value), dumpFlat B s r t v = (addFlat B s r t v []).map eventsObj
  | .record _ fs, v => by
    cases v <;> try rfl
    simp only [dumpFlat, addFlat]
    exact dumpFields_eq hB s r fs _
  | .leaf _, _ | .enum _, _ | .rawEnum _, _ | .enumSet _, _ | .opt _, _
  | .vec _, _ | .arr _ _, _ | .map _, _ | .tuple _ _, _ => rfl
end

end Verif.Serial
