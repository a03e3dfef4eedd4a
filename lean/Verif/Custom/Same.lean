import Verif.Custom.Lemmas

/-! `dump` says what `serialize` builds. -/

namespace Verif.Custom

theorem members_lt : ∀ (bs : List Bool) (i j : Nat), j ∈ members i bs → i ≤ j ∧ j < i + bs.length
  | [], i, j, h => by simp [members] at h
  | b :: bs, i, j, h => by
    have ih := members_lt bs (i + 1) j
    simp only [members] at h
    simp only [List.length_cons]
    split at h
    · simp only [List.mem_cons] at h
      rcases h with rfl | h
      · omega
      · have := ih h; omega
    · have := ih h; omega

theorem dumpEntries_events {t : Ty} {sk : Bool} {f : Val → Option (List Ev)} {g : Val → Option Doc} :
    ∀ {es : List (String × Val)}, (∀ e ∈ es, f e.2 = (g e.2).map events) →
      dumpEntries sk t f es = (writeEntries sk t g es).map eventsObj
  | [], _ => rfl
  | (k, v) :: es, hb => by
    have ha : f v = (g v).map events := hb (k, v) (by simp)
    have hl := dumpEntries_events (es := es) (t := t) (sk := sk) (f := f) (g := g) (fun x hx => hb x (by simp [hx]))
    simp only [dumpEntries, writeEntries, ha, hl]
    split
    · rfl
    · cases g v with
      | none => rfl
      | some d =>
        cases writeEntries sk t g es with
        | none => rfl
        | some ms => rfl

theorem eventsObj_append : ∀ a b : List (String × Doc), eventsObj (a ++ b) = eventsObj a ++ eventsObj b
  | [], _ => rfl
  | (k, d) :: a, b => by simp [eventsObj, eventsObj_append a b]

theorem bracketObj_events (ms : List (String × Doc)) : bracketObj (eventsObj ms) = events (.obj ms) := by
  simp [bracketObj, events]

mutual
theorem dump_events (sk : Bool) : ∀ (t : Ty) (v : Val),
    Agrees t → HasTy t v → dump sk t v = (write sk t v).map events
  | .opq h, v, hf, hv => by
    simp only [dump, write]
    exact same_run hf hv (fun _ => rfl)
  | .num h, v, hf, hv => by
    simp only [dump, write]
    refine same_run hf hv (fun _ => ?_)
    obtain ⟨n, rfl⟩ := hv; rfl
  | .str h, v, hf, hv => by
    simp only [dump, write]
    refine same_run hf hv (fun _ => ?_)
    obtain ⟨n, rfl⟩ := hv; rfl
  | .enm h names, v, hf, hv => by
    simp only [dump, write]
    refine same_run hf hv (fun _ => ?_)
    cases enumText names v <;> rfl
  | .opt h t, v, hf, hv => by
    simp only [dump, write]
    refine same_run hf hv (fun hin => ?_)
    rcases hv with rfl | ⟨x, rfl, hx⟩
    · rfl
    · exact dump_events sk t x hin hx
  | .seq h t, v, hf, hv => by
    simp only [dump, write]
    refine same_run hf hv (fun hin => ?_)
    obtain ⟨vs, rfl, hvs⟩ := hv
    simp only [collect_events (fun x hx => dump_events sk t x hin (hvs x hx)), Option.map_map]
    congr 1
    funext l
    exact bracketArr_events l
  | .map h key t, v, hf, hv => by
    simp only [dump, write]
    refine same_run hf hv (fun hin => ?_)
    obtain ⟨es, rfl, _, hes⟩ := hv
    simp only [dumpEntries_events (fun e he => dump_events sk t e.2 hin (hes e he)), Option.map_map]
    congr 1
  | .tup h ts, v, hf, hv => by
    simp only [dump, write]
    refine same_run hf hv (fun hin => ?_)
    obtain ⟨vs, rfl, hvs⟩ := hv
    simp only [dumpTys_events sk ts vs hin hvs, Option.map_map]
    congr 1
    funext l
    exact bracketArr_events l
  | .set h eh names, v, hf, hv => by
    simp only [dump, write]
    refine same_run hf hv (fun hin => ?_)
    obtain ⟨bs, rfl, hlen⟩ := hv
    have hc := collect_events (l := members 0 bs)
      (f := fun i : Nat => (enumText names (.num i)).map fun s => [Ev.str s])
      (g := fun i : Nat => (eh.onWrite true).run (fun v => (enumText names v).map .str) (.num i)) (by
        intro i hi
        have hlt := (members_lt bs 0 i hi).2
        simp only [Nat.zero_add, hlen] at hlt
        simp only [WritesNames] at hin
        have htext : enumText names (.num (i : Int)) = some names[i] := by
          simp only [enumText]
          rw [if_neg (by omega)]
          simp [hlt]
        cases hs : eh.onWrite true with
        | custom w =>
          rw [hs] at hin
          simp only [Sel.run, htext, hin i hlt, Option.map_some, events]
        | builtin => simp only [Sel.run, htext, Option.map_some, events]
        | fails => rw [hs] at hin; exact hin.elim)
    simp only [hc, Option.map_map]
    congr 1
    funext l
    exact bracketArr_events l
  | .obj h fs, v, hf, hv => by
    simp only [dump, write]
    refine same_run hf hv (fun hin => ?_)
    obtain ⟨vs, rfl, hvs⟩ := hv
    simp only [dumpFlds_events sk fs vs hin hvs, Option.map_map]
    congr 1

theorem dumpTys_events (sk : Bool) : ∀ (ts : Tys) (vs : List Val),
    AgreesTys ts → HasTys ts vs → dumpTys sk ts vs = (writeTys sk ts vs).map (List.map events)
  | .nil, vs, _, hv => by
    simp only [HasTys] at hv
    subst hv; rfl
  | .cons t rest, vs, hf, hv => by
    obtain ⟨v, vs', rfl, hvt, hvr⟩ := hv
    simp only [dumpTys, writeTys, dump_events sk t v hf.1 hvt, dumpTys_events sk rest vs' hf.2 hvr]
    cases write sk t v with
    | none => rfl
    | some d =>
      cases writeTys sk rest vs' with
      | none => rfl
      | some ds => rfl

theorem dumpFlds_events (sk : Bool) : ∀ (fs : Flds) (vs : List Val),
    AgreesFlds fs → HasFlds fs vs → dumpFlds sk fs vs = (writeFlds sk fs vs).map eventsObj
  | .nil, vs, _, hv => by
    simp only [HasFlds] at hv
    subst hv; rfl
  | .cons f t rest, vs, hf, hv => by
    obtain ⟨v, vs', rfl, hvt, hvr⟩ := hv
    have hr := dumpFlds_events sk rest vs' hf.2 hvr
    simp only [dumpFlds, writeFlds, hr]
    split
    · rfl
    · cases hfl : f.flat with
      | true =>
        have h1 := hf.1
        rw [if_pos hfl] at h1
        simp only [dumpFlat_events sk t v h1 hvt]
        cases writeFlat sk t v with
        | none => rfl
        | some d =>
          cases writeFlds sk rest vs' with
          | none => rfl
          | some ds => simp [eventsObj_append]
      | false =>
        have h1 := hf.1
        rw [if_neg (by simp [hfl])] at h1
        simp only [dump_events sk t v h1 hvt]
        cases write sk t v with
        | none => rfl
        | some d =>
          cases writeFlds sk rest vs' with
          | none => rfl
          | some ds => rfl

theorem dumpFlat_events (sk : Bool) : ∀ (t : Ty) (v : Val),
    AgreesFlat t → HasTy t v → dumpFlat sk t v = (writeFlat sk t v).map eventsObj
  | .obj h fs, v, hf, hv => by
    obtain ⟨vs, rfl, hvs⟩ := hv
    exact dumpFlds_events sk fs vs hf hvs
  | .opq _, _, _, _ => by simp [dumpFlat, writeFlat]
  | .num _, _, _, _ => by simp [dumpFlat, writeFlat]
  | .str _, _, _, _ => by simp [dumpFlat, writeFlat]
  | .enm _ _, _, _, _ => by simp [dumpFlat, writeFlat]
  | .opt _ _, _, _, _ => by simp [dumpFlat, writeFlat]
  | .seq _ _, _, _, _ => by simp [dumpFlat, writeFlat]
  | .map _ _ _, _, _, _ => by simp [dumpFlat, writeFlat]
  | .tup _ _, _, _, _ => by simp [dumpFlat, writeFlat]
  | .set _ _ _, _, _, _ => by simp [dumpFlat, writeFlat]
end

end Verif.Custom
