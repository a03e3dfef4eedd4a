import Verif.Custom.Round

/-! What `patch` makes of a written document, and when it compiles. -/

namespace Verif.Custom

mutual
theorem fresh_hasTy : ∀ t : Ty, HasTy t (fresh t)
  | .opq _ => ⟨0, rfl⟩
  | .num _ => ⟨0, rfl⟩
  | .str _ => ⟨"", rfl⟩
  | .enm _ _ => ⟨0, rfl⟩
  | .opt _ _ => Or.inl rfl
  | .seq _ _ => ⟨[], rfl, by simp⟩
  | .map _ _ _ => ⟨[], rfl, by simp, by simp⟩
  | .tup _ ts => ⟨freshTys ts, rfl, fresh_hasTys ts⟩
  | .set _ _ names => ⟨List.replicate names.length false, rfl, by simp⟩
  | .obj _ fs => ⟨freshFlds fs, rfl, fresh_hasFlds fs⟩

theorem fresh_hasTys : ∀ ts : Tys, HasTys ts (freshTys ts)
  | .nil => rfl
  | .cons t rest => ⟨fresh t, freshTys rest, rfl, fresh_hasTy t, fresh_hasTys rest⟩

theorem fresh_hasFlds : ∀ fs : Flds, HasFlds fs (freshFlds fs)
  | .nil => rfl
  | .cons _ t rest => ⟨fresh t, freshFlds rest, rfl, fresh_hasTy t, fresh_hasFlds rest⟩
end

theorem part_run {t : Ty} {s : PatchSel} {inner whole : Prop} {b : Val → Doc → Option Val}
    {v x : Val} {d : Doc} (hp : PatchPart t s inner whole) (hv : HasTy t v) (hx : HasTy t x)
    (hw : write false t x = some d) (hin : inner → b v d = some x) (hwhole : whole → read t d = some x) :
    s.run b (read t) v d = some x := by
  cases s <;> simp only [PatchPart] at hp
  · exact hp v x d hv hx hw
  · exact hin hp
  · exact hwhole hp

theorem hasField_iff {ms : List (String × Doc)} {n : String} : hasField ms n = true ↔ n ∈ ms.map (·.1) := by
  simp [hasField]

/-- `hasField` on the whole as on the part. -/
theorem hasField_eq {a b : List (String × Doc)} {n : String} (h : n ∈ a.map (·.1) ↔ n ∈ b.map (·.1)) :
    hasField a n = hasField b n := by
  cases ha : hasField a n <;> cases hb : hasField b n <;> simp_all [hasField_iff, ← Bool.not_eq_true]

mutual
theorem write_patch : ∀ (t : Ty) (v x : Val) (d : Doc),
    PatchFaithful t → HasTy t v → HasTy t x → write false t x = some d → patch t v d = some x
  | .opq h, v, x, d, hf, hv, hx, hw => by
    simp only [patch]
    exact part_run hf hv hx hw False.elim (fun hh => write_read false _ _ _ hh hx hw)
  | .num h, v, x, d, hf, hv, hx, hw => by
    simp only [patch]
    exact part_run hf hv hx hw False.elim (fun hh => write_read false _ _ _ hh hx hw)
  | .str h, v, x, d, hf, hv, hx, hw => by
    simp only [patch]
    exact part_run hf hv hx hw False.elim (fun hh => write_read false _ _ _ hh hx hw)
  | .enm h names, v, x, d, hf, hv, hx, hw => by
    simp only [patch]
    exact part_run hf hv hx hw False.elim (fun hh => write_read false _ _ _ hh hx hw)
  | .seq h t, v, x, d, hf, hv, hx, hw => by
    simp only [patch]
    exact part_run hf hv hx hw False.elim (fun hh => write_read false _ _ _ hh hx hw)
  | .map h key t, v, x, d, hf, hv, hx, hw => by
    simp only [patch]
    exact part_run hf hv hx hw False.elim (fun hh => write_read false _ _ _ hh hx hw)
  | .tup h ts, v, x, d, hf, hv, hx, hw => by
    simp only [patch]
    exact part_run hf hv hx hw False.elim (fun hh => write_read false _ _ _ hh hx hw)
  | .set h eh names, v, x, d, hf, hv, hx, hw => by
    simp only [patch]
    exact part_run hf hv hx hw False.elim (fun hh => write_read false _ _ _ hh hx hw)
  | .opt h t, v, x, d, hf, hv, hx, hw => by
    simp only [patch]
    refine part_run hf hv hx hw ?_ (fun hh => write_read false _ _ _ hh hx hw)
    intro hin
    obtain ⟨hb, hpt, hnn⟩ := hin
    simp only [write, hb, Sel.run] at hw
    rcases hx with rfl | ⟨y, rfl, hy⟩
    · simp only [Option.some.injEq] at hw
      subst hw; rfl
    · have hd : d ≠ .null := by
        intro hd
        exact never_null hnn (hd ▸ hw)
      rcases hv with rfl | ⟨z, rfl, hz⟩
      · have := write_patch t (fresh t) y d hpt (fresh_hasTy t) hy hw
        cases d <;> first | exact absurd rfl hd | simp [this]
      · have := write_patch t z y d hpt hz hy hw
        cases d <;> first | exact absurd rfl hd | simp [this]
  | .obj h fs, v, x, d, hf, hv, hx, hw => by
    simp only [patch]
    refine part_run hf hv hx hw ?_ (fun hh => write_read false _ _ _ hh hx hw)
    intro hin
    obtain ⟨hb, hpt, hnd⟩ := hin
    simp only [write, hb, Sel.run] at hw
    obtain ⟨vs, rfl, hvs⟩ := hv
    obtain ⟨xs, rfl, hxs⟩ := hx
    simp only [Option.map_eq_some_iff] at hw
    obtain ⟨ms, hc, rfl⟩ := hw
    simp only [writeFlds_patchFlds fs vs xs ms ms hpt hnd hvs hxs hc (fun _ _ => rfl) (fun _ _ => Iff.rfl),
      Option.map_some]

theorem writeFlds_patchFlds : ∀ (fs : Flds) (vs xs : List Val) (ms Ms : List (String × Doc)),
    PatchFaithfulFlds fs → (outNames fs).Nodup → HasFlds fs vs → HasFlds fs xs →
    writeFlds false fs xs = some ms →
    (∀ n ∈ outNames fs, atField Ms n = atField ms n) →
    (∀ n ∈ outNames fs, (n ∈ Ms.map (·.1) ↔ n ∈ ms.map (·.1))) → patchFlds Ms fs vs = some xs
  | .nil, vs, xs, ms, Ms, _, _, hv, hx, _, _, _ => by
    simp only [HasFlds] at hv hx
    subst hv hx; rfl
  | .cons f t rest, vs, xs, ms, Ms, hf, hnd, hv, hx, h, hat, hmem => by
    obtain ⟨v, vs', rfl, hvt, hvr⟩ := hv
    obtain ⟨x, xs', rfl, hxt, hxr⟩ := hx
    simp only [outNames] at hnd hat hmem
    have ⟨hnd1, hnd2, hdis⟩ := List.nodup_append.mp hnd
    simp only [writeFlds, Bool.false_and, Bool.false_eq_true, if_false] at h
    split at h
    · rename_i hfl
      split at h
      · cases h
      · rename_i fms hw
        split at h
        · cases h
        · rename_i rs hrs
          simp only [Option.some.injEq] at h
          subst h
          have h1 := hf.1
          rw [if_pos hfl] at h1
          simp only [hfl, if_true] at hat hdis hnd1 hmem
          have hnotF : ∀ n ∈ outNames rest, n ∉ fms.map (·.1) := fun n hn hm =>
            hdis n (writeFlat_names false t x fms hw n hm) n hn rfl
          have hnotR : ∀ n ∈ flatNames t, n ∉ rs.map (·.1) := fun n hn hm =>
            hdis n hn n (writeFlds_names false rest xs' rs hrs n hm) rfl
          have hr := writeFlds_patchFlds rest vs' xs' rs Ms hf.2 hnd2 hvr hxr hrs
            (by
              intro n hn
              rw [hat n (by simp [hn]), atField_append, if_neg (hnotF n hn)])
            (by
              intro n hn
              rw [hmem n (by simp [hn]), List.map_append, List.mem_append]
              simp only [hnotF n hn, false_or])
          have ht := writeFlat_patch t v x fms Ms h1 hnd1 hvt hxt hw
            (by
              intro n hn
              rw [hat n (by simp [hn]), atField_append]
              split
              · rfl
              · rename_i hnot
                rw [atField_missing hnot, atField_missing (hnotR n hn)])
            (by
              intro n hn
              rw [hmem n (by simp [hn]), List.map_append, List.mem_append]
              simp only [hnotR n hn, or_false])
          simp only [patchFlds, hfl, if_true, ht, hr]
    · rename_i hfl
      split at h
      · cases h
      · rename_i d hd
        split at h
        · cases h
        · rename_i rs hrs
          simp only [Option.some.injEq] at h
          subst h
          have h1 := hf.1
          rw [if_neg (by simp [hfl])] at h1
          simp only [hfl, Bool.false_eq_true, if_false] at hat hdis hmem
          have hne : ∀ n ∈ outNames rest, ¬ f.name = n := fun n hn => hdis f.name (by simp) n hn
          have hr := writeFlds_patchFlds rest vs' xs' rs Ms hf.2 hnd2 hvr hxr hrs
            (by
              intro n hn
              rw [hat n (by simp [hn])]
              simp [atField, hne n hn])
            (by
              intro n hn
              rw [hmem n (by simp [hn]), List.map_cons, List.mem_cons]
              have : ¬ n = f.name := fun h => hne n hn h.symm
              simp only [this, false_or])
          have ha : atField Ms f.name = d := by
            rw [hat f.name (by simp)]; simp [atField]
          have hh : hasField Ms f.name = true := by
            rw [hasField_iff, hmem f.name (by simp)]; simp
          have ht := write_patch t v x d h1 hvt hxt hd
          simp only [patchFlds, hfl, Bool.false_eq_true, if_false, ha, hh, if_true, ht, hr]

theorem writeFlat_patch : ∀ (t : Ty) (v x : Val) (ms Ms : List (String × Doc)),
    PatchFaithfulFlat t → (flatNames t).Nodup → HasTy t v → HasTy t x → writeFlat false t x = some ms →
    (∀ n ∈ flatNames t, atField Ms n = atField ms n) →
    (∀ n ∈ flatNames t, (n ∈ Ms.map (·.1) ↔ n ∈ ms.map (·.1))) → patch t v (.obj Ms) = some x
  | .obj h fs, v, x, ms, Ms, hf, hnd, hv, hx, hw, hat, hmem => by
    obtain ⟨vs, rfl, hvs⟩ := hv
    obtain ⟨xs, rfl, hxs⟩ := hx
    simp only [patch, hf.1, PatchSel.run]
    simp only [writeFlds_patchFlds fs vs xs ms Ms hf.2 hnd hvs hxs hw hat hmem, Option.map_some]
  | .opq _, _, _, _, _, hf, _, _, _, _, _, _ => hf.elim
  | .num _, _, _, _, _, hf, _, _, _, _, _, _ => hf.elim
  | .str _, _, _, _, _, hf, _, _, _, _, _, _ => hf.elim
  | .enm _ _, _, _, _, _, hf, _, _, _, _, _, _ => hf.elim
  | .opt _ _, _, _, _, _, hf, _, _, _, _, _, _ => hf.elim
  | .seq _ _, _, _, _, _, hf, _, _, _, _, _, _ => hf.elim
  | .map _ _ _, _, _, _, _, hf, _, _, _, _, _, _ => hf.elim
  | .tup _ _, _, _, _, _, hf, _, _, _, _, _, _ => hf.elim
  | .set _ _ _, _, _, _, _, hf, _, _, _, _, _, _ => hf.elim
end

theorem atField_first : ∀ {ms : List (String × Doc)} {n : String}, hasField ms n = true → First ms n (atField ms n)
  | [], n, h => by simp [hasField] at h
  | (k, d) :: ms, n, h => by
    by_cases hk : k = n
    · subst hk
      exact ⟨[], ms, by simp [atField], by simp⟩
    · have h' : hasField ms n = true := by simpa [hasField, hk] using h
      obtain ⟨pre, post, he, hp⟩ := atField_first h'
      refine ⟨(k, d) :: pre, post, ?_, ?_⟩
      · simp only [atField, hk, if_false, List.cons_append]
        rw [← he]
      · intro m hm
        simp only [List.mem_cons] at hm
        rcases hm with rfl | hm
        · exact hk
        · exact hp m hm

mutual
/-- What becomes of each field. -/
theorem patchFlds_fields : ∀ (fs : Flds) (vs ws : List Val) (ms : List (String × Doc)),
    FlatByLib fs → patchFlds ms fs vs = some ws → ∀ n t x, Holds fs vs n t x →
    ∃ y, Holds fs ws n t y ∧ ((n ∉ ms.map (·.1) ∧ y = x) ∨ ∃ d, First ms n d ∧ patch t x d = some y)
  | .nil, vs, ws, ms, _, h, n, t, x, hx => by cases hx
  | .cons f u rest, vs, ws, ms, hl, h, n, t, x, hx => by
    cases vs with
    | nil => simp [patchFlds] at h
    | cons v vs =>
      simp only [patchFlds] at h
      split at h
      · cases h
      · rename_i v' hv'
        split at h
        · cases h
        · rename_i ws' hws
          simp only [Option.some.injEq] at h
          subst h
          cases hx with
          | here hf =>
            simp only [hf, Bool.false_eq_true, if_false] at hv'
            refine ⟨v', .here hf, ?_⟩
            split at hv'
            · rename_i hh
              exact Or.inr ⟨_, atField_first hh, hv'⟩
            · rename_i hh
              simp only [Option.some.injEq] at hv'
              exact Or.inl ⟨fun hm => hh (hasField_iff.mpr hm), hv'.symm⟩
          | inside hf hx =>
            simp only [hf, if_true] at hv'
            obtain ⟨y, hy, hr⟩ := patchFlat_fields u v v' ms (hl.1 hf) hv' n t x hx
            exact ⟨y, .inside hf hy, hr⟩
          | later hx =>
            obtain ⟨y, hy, hr⟩ := patchFlds_fields rest vs ws' ms hl.2 hws n t x hx
            exact ⟨y, .later hy, hr⟩

theorem patchFlat_fields : ∀ (u : Ty) (v w : Val) (ms : List (String × Doc)),
    FlatByLibTy u → patch u v (.obj ms) = some w → ∀ n t x, HoldsFlat u v n t x →
    ∃ y, HoldsFlat u w n t y ∧ ((n ∉ ms.map (·.1) ∧ y = x) ∨ ∃ d, First ms n d ∧ patch t x d = some y)
  | .obj h fs, v, w, ms, hl, hp, n, t, x, hx => by
    cases hx with
    | mk hx =>
      simp only [patch, hl.1, PatchSel.run, Option.map_eq_some_iff] at hp
      obtain ⟨ws, hws, rfl⟩ := hp
      obtain ⟨y, hy, hr⟩ := patchFlds_fields fs _ ws ms hl.2 hws n t x hx
      exact ⟨y, .mk hy, hr⟩
  | .opq _, _, _, _, hl, _, _, _, _, _ => hl.elim
  | .num _, _, _, _, hl, _, _, _, _, _ => hl.elim
  | .str _, _, _, _, hl, _, _, _, _, _ => hl.elim
  | .enm _ _, _, _, _, hl, _, _, _, _, _ => hl.elim
  | .opt _ _, _, _, _, hl, _, _, _, _, _ => hl.elim
  | .seq _ _, _, _, _, hl, _, _, _, _, _ => hl.elim
  | .map _ _ _, _, _, _, hl, _, _, _, _, _ => hl.elim
  | .tup _ _, _, _, _, hl, _, _, _, _, _ => hl.elim
  | .set _ _ _, _, _, _, hl, _, _, _, _, _ => hl.elim
end

end Verif.Custom
