import Verif.Custom.Spec

/-! Lemmas for `Verif.Custom.Props`. -/

namespace Verif.Custom

theorem run_custom {α β : Type} (f b : α → Option β) (x : α) : (Sel.custom f).run b x = f x := rfl
theorem run_builtin {α β : Type} (b : α → Option β) (x : α) : (Sel.builtin : Sel (α → Option β)).run b x = b x := rfl

/-- The step every shape shares. -/
theorem both_run {P : Val → Prop} {w : Sel (Val → Option Doc)} {r : Sel (Doc → Option Val)} {inner : Prop}
    {bw : Val → Option Doc} {br : Doc → Option Val} {v : Val} {d : Doc}
    (hb : Both P w r inner) (hv : P v) (h : w.run bw v = some d)
    (hin : inner → bw v = some d → br d = some v) : r.run br d = some v := by
  cases w <;> cases r <;> simp only [Both] at hb
  · exact hb _ _ hv h
  · exact hin hb h

theorem same_run {P : Val → Prop} {dd : Sel (Val → Option (List Ev))} {w : Sel (Val → Option Doc)} {inner : Prop}
    {bd : Val → Option (List Ev)} {bw : Val → Option Doc} {v : Val}
    (hb : Same P dd w inner) (hv : P v) (hin : inner → bd v = (bw v).map events) :
    dd.run bd v = (w.run bw v).map events := by
  cases dd <;> cases w <;> simp only [Same] at hb
  · exact hb _ hv
  · exact hin hb

/-! ### Lists -/

theorem collect_back {α β : Type} {f : α → Option β} {g : β → Option α} :
    ∀ {l : List α} {ds : List β}, (∀ x ∈ l, ∀ d, f x = some d → g d = some x) →
      collect f l = some ds → collect g ds = some l
  | [], ds, _, h => by
    simp only [collect, Option.some.injEq] at h
    subst h; rfl
  | a :: l, ds, hb, h => by
    simp only [collect] at h
    split at h
    · cases h
    · rename_i b hfb
      split at h
      · cases h
      · rename_i bs hc
        simp only [Option.some.injEq] at h
        subst h
        simp only [collect, hb a (by simp) b hfb,
          collect_back (fun x hx => hb x (by simp [hx])) hc]

theorem collect_events {α : Type} {f : α → Option (List Ev)} {g : α → Option Doc} :
    ∀ {l : List α}, (∀ x ∈ l, f x = (g x).map events) →
      collect f l = (collect g l).map (List.map events)
  | [], _ => rfl
  | a :: l, hb => by
    have ha := hb a (by simp)
    have hl := collect_events (l := l) (f := f) (g := g) (fun x hx => hb x (by simp [hx]))
    simp only [collect, ha, hl]
    cases g a with
    | none => rfl
    | some d =>
      cases collect g l with
      | none => rfl
      | some ds => rfl

theorem eventsArr_flatten : ∀ l : List Doc, eventsArr l = (l.map events).flatten
  | [] => rfl
  | d :: l => by simp [eventsArr, eventsArr_flatten l]

theorem bracketArr_events (l : List Doc) : bracketArr (l.map events) = events (.arr l) := by
  simp [bracketArr, events, eventsArr_flatten]

/-! ### Fields -/

theorem atField_append (l r : List (String × Doc)) (n : String) :
    atField (l ++ r) n = if n ∈ l.map (·.1) then atField l n else atField r n := by
  induction l with
  | nil => simp
  | cons m l ih =>
    obtain ⟨k, d⟩ := m
    by_cases hk : k = n
    · simp [atField, hk]
    · have hne : ¬ n = k := fun h => hk h.symm
      have hiff : n ∈ ((k, d) :: l).map (·.1) ↔ n ∈ l.map (·.1) := by
        simp only [List.map_cons, List.mem_cons, hne, false_or]
      by_cases hm : n ∈ l.map (·.1)
      · rw [if_pos (hiff.mpr hm)]
        rw [if_pos hm] at ih
        simp [atField, hk, ih]
      · rw [if_neg (fun h => hm (hiff.mp h))]
        rw [if_neg hm] at ih
        simp [atField, hk, ih]

theorem atField_missing {l : List (String × Doc)} {n : String} (h : n ∉ l.map (·.1)) : atField l n = .null := by
  induction l with
  | nil => rfl
  | cons m l ih =>
    obtain ⟨k, d⟩ := m
    simp only [List.map_cons, List.mem_cons, not_or] at h
    have : ¬ k = n := fun hk => h.1 hk.symm
    simp only [atField, this, if_false, ih h.2]

mutual
/-- Fields are written under their names. -/
theorem writeFlds_names (sk : Bool) : ∀ (fs : Flds) (vs : List Val) (ms : List (String × Doc)),
    writeFlds sk fs vs = some ms → ∀ n ∈ ms.map (·.1), n ∈ outNames fs
  | .nil, vs, ms, h, n, hn => by
    cases vs with
    | nil => simp only [writeFlds, Option.some.injEq] at h; subst h; simp at hn
    | cons v vs => simp [writeFlds] at h
  | .cons f t rest, vs, ms, h, n, hn => by
    cases vs with
    | nil => simp [writeFlds] at h
    | cons v vs =>
      simp only [writeFlds] at h
      simp only [outNames, List.mem_append]
      split at h
      · exact Or.inr (writeFlds_names sk rest vs ms h n hn)
      · split at h
        · rename_i hf
          split at h
          · cases h
          · rename_i fms hw
            split at h
            · cases h
            · rename_i rs hr
              simp only [Option.some.injEq] at h
              subst h
              simp only [List.map_append, List.mem_append] at hn
              rcases hn with hn | hn
              · left; simp only [hf, if_true]; exact writeFlat_names sk t v fms hw n hn
              · exact Or.inr (writeFlds_names sk rest vs rs hr n hn)
        · rename_i hf
          split at h
          · cases h
          · split at h
            · cases h
            · rename_i rs hr
              simp only [Option.some.injEq] at h
              subst h
              simp only [List.map_cons, List.mem_cons] at hn
              rcases hn with hn | hn
              · left; simp [hf, hn]
              · exact Or.inr (writeFlds_names sk rest vs rs hr n hn)

theorem writeFlat_names (sk : Bool) : ∀ (t : Ty) (v : Val) (ms : List (String × Doc)),
    writeFlat sk t v = some ms → ∀ n ∈ ms.map (·.1), n ∈ flatNames t
  | .obj hk fs, v, ms, h, n, hn => by
    cases v with
    | list vs => exact writeFlds_names sk fs vs ms h n hn
    | _ => simp [writeFlat] at h
  | .opq _, v, ms, h, n, hn => by simp [writeFlat] at h
  | .num _, v, ms, h, n, hn => by simp [writeFlat] at h
  | .str _, v, ms, h, n, hn => by simp [writeFlat] at h
  | .enm _ _, v, ms, h, n, hn => by simp [writeFlat] at h
  | .opt _ _, v, ms, h, n, hn => by simp [writeFlat] at h
  | .seq _ _, v, ms, h, n, hn => by simp [writeFlat] at h
  | .map _ _ _, v, ms, h, n, hn => by simp [writeFlat] at h
  | .tup _ _, v, ms, h, n, hn => by simp [writeFlat] at h
  | .set _ _ _, v, ms, h, n, hn => by simp [writeFlat] at h
end

/-! ### Maps -/

theorem readKey_plain {key : Option (String → Option String)} (h : KeyPlain key) (k : String) :
    readKey key k = some k := by
  cases key with
  | none => rfl
  | some f => exact h f rfl k

theorem emplace_new {es : List (String × Val)} {k : String} {v : Val} (h : k ∉ es.map (·.1)) :
    emplace es k v = es ++ [(k, v)] := by
  have : (es.any fun e => e.1 = k) = false := by
    simp only [List.any_eq_false, decide_eq_true_eq]
    intro e he hek
    exact h (List.mem_map.mpr ⟨e, he, hek⟩)
  simp [emplace, this]

theorem readEntries_back {key : Option (String → Option String)} {t : Ty} {sk : Bool}
    {f : Val → Option Doc} {g : Doc → Option Val} (hk : KeyPlain key) :
    ∀ {es : List (String × Val)} {ms : List (String × Doc)} {acc : List (String × Val)},
      (∀ e ∈ es, (sk && isNull t e.2) = false) →
      (∀ e ∈ es, ∀ d, f e.2 = some d → g d = some e.2) →
      ((acc ++ es).map (·.1)).Nodup →
      writeEntries sk t f es = some ms → readEntries key g ms acc = some (acc ++ es)
  | [], ms, acc, _, _, _, h => by
    simp only [writeEntries, Option.some.injEq] at h
    subst h; simp [readEntries]
  | (k, v) :: es, ms, acc, hnull, hb, hnd, h => by
    have hn := hnull (k, v) (by simp)
    simp only [writeEntries, hn, Bool.false_eq_true, if_false] at h
    split at h
    · cases h
    · rename_i d hfd
      split at h
      · cases h
      · rename_i ms' hw
        simp only [Option.some.injEq] at h
        subst h
        have hg : g d = some v := hb (k, v) (by simp) d hfd
        have hnew : k ∉ acc.map (·.1) := by
          simp only [List.map_append, List.map_cons] at hnd
          have := (List.nodup_append.mp hnd).2.2
          intro hm
          exact this k hm k (by simp) rfl
        simp only [readEntries, readKey_plain hk, hg, emplace_new hnew]
        have := readEntries_back hk (es := es) (ms := ms') (acc := acc ++ [(k, v)])
          (fun e he => hnull e (by simp [he])) (fun e he => hb e (by simp [he]))
          (by simpa using hnd) hw
        simpa using this

theorem isNull_opt {t : Ty} {v : Val} (h : isNull t v = true) : (∃ hk u, t = .opt hk u) ∧ v = .absent := by
  cases t with
  | opt hk u =>
    cases v <;> simp [isNull] at h
    exact ⟨⟨hk, u, rfl⟩, rfl⟩
  | _ => simp [isNull] at h

theorem not_null_of_not_opt {t : Ty} (h : ∀ hk u, t ≠ .opt hk u) (v : Val) : isNull t v = false := by
  cases hn : isNull t v with
  | false => rfl
  | true =>
    obtain ⟨⟨hk, u, ht⟩, _⟩ := isNull_opt hn
    exact absurd ht (h hk u)

/-! ### Enumerations -/

theorem readEnum_back {names : List String} (hnd : names.Nodup) {v : Val} {d : Doc}
    (h : (enumText names v).map Doc.str = some d) : readEnum names d = some v := by
  cases v with
  | num n =>
    simp only [enumText] at h
    split at h
    · cases h
    · rename_i hn
      cases hg : names[n.toNat]? with
      | none => simp [hg] at h
      | some s =>
        simp only [hg, Option.map_some, Option.some.injEq] at h
        subst h
        have hlt : n.toNat < names.length := by
          rcases Nat.lt_or_ge n.toNat names.length with h | h
          · exact h
          · simp [h] at hg
        have hgs : names[n.toNat] = s := by simpa [hlt] using hg
        have hmem : s ∈ names := hgs ▸ List.getElem_mem hlt
        have hidx : names.idxOf s = n.toNat := by
          rw [← hgs]; exact hnd.idxOf_getElem n.toNat hlt
        simp only [readEnum, hmem, if_true, hidx, Option.some.injEq, Val.num.injEq]
        omega
  | _ => simp [enumText] at h

/-- The set that holds the flags before `i` and none after. -/
theorem readSet_back {g : Doc → Option Val} {f : Nat → Option Doc} :
    ∀ (bs pre : List Bool) {ds : List Doc},
      (∀ i d, f i = some d → g d = some (.num i)) →
      collect f (members pre.length bs) = some ds →
      readSet g ds (pre ++ List.replicate bs.length false) = some (pre ++ bs)
  | [], pre, ds, _, h => by
    simp only [members, collect, Option.some.injEq] at h
    subst h; simp [readSet]
  | b :: bs, pre, ds, hb, h => by
    cases b with
    | false =>
      simp only [members, Bool.false_eq_true, if_false] at h
      have := readSet_back bs (pre ++ [false]) hb (by simpa using h)
      simpa [List.replicate_succ] using this
    | true =>
      simp only [members, if_true, collect] at h
      split at h
      · cases h
      · rename_i d hd
        split at h
        · cases h
        · rename_i ds' hc
          simp only [Option.some.injEq] at h
          subst h
          have hg := hb _ _ hd
          have := readSet_back bs (pre ++ [true]) hb (by simpa using hc)
          have hset : (pre ++ List.replicate (bs.length + 1) false).set pre.length true =
              pre ++ [true] ++ List.replicate bs.length false := by
            rw [List.replicate_succ, List.set_append_right _ _ (Nat.le_refl _)]
            simp
          simp only [readSet, hg, List.length_cons]
          rw [if_pos (by simp)]
          simp only [Int.toNat_natCast, hset]
          simpa using this

end Verif.Custom
