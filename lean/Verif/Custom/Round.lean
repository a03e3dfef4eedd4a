import Verif.Custom.Lemmas

/-! What was written is read back, and `dump` says what `serialize` builds. -/

namespace Verif.Custom

theorem never_null {sk : Bool} {t : Ty} {v : Val} (h : NeverNull t) : write sk t v ≠ some .null := by
  cases t with
  | opt hk u =>
    simp only [NeverNull, Ty.hooks, Ty.supported] at h
    simp only [write]
    cases hs : hk.onWrite true with
    | custom w => rw [hs] at h; exact h v
    | builtin => rw [hs] at h; exact absurd rfl (h hk u)
    | fails => simp [Sel.run]
  | opq hk =>
    simp only [NeverNull, Ty.hooks, Ty.supported] at h
    simp only [write]
    cases hs : hk.onWrite false with
    | custom w => rw [hs] at h; exact h v
    | builtin => simp [Sel.run]
    | fails => simp [Sel.run]
  | _ =>
    rename_i hk
    simp only [NeverNull, Ty.hooks, Ty.supported] at h
    simp only [write]
    cases hs : Hooks.onWrite _ true with
    | custom w => rw [hs] at h; exact h v
    | builtin => cases v <;> simp [Sel.run, Option.map_eq_some_iff]
    | fails => simp [Sel.run]

mutual
theorem write_read (sk : Bool) : ∀ (t : Ty) (v : Val) (d : Doc),
    Faithful sk t → HasTy t v → write sk t v = some d → read t d = some v
  | .opq h, v, d, hf, hv, hw => both_run (h := hw) hf hv (by intro _ h; cases h)
  | .num h, v, d, hf, hv, hw => by
    refine both_run (h := hw) hf hv ?_
    intro _ h
    obtain ⟨n, rfl⟩ := hv
    simp only [Option.some.injEq] at h
    subst h; rfl
  | .str h, v, d, hf, hv, hw => by
    refine both_run (h := hw) hf hv ?_
    intro _ h
    obtain ⟨n, rfl⟩ := hv
    simp only [Option.some.injEq] at h
    subst h; rfl
  | .enm h names, v, d, hf, hv, hw => both_run (h := hw) hf hv (fun hnd h => readEnum_back hnd h)
  | .opt h t, v, d, hf, hv, hw => by
    refine both_run (h := hw) hf hv ?_
    intro hin h
    rcases hv with rfl | ⟨x, rfl, hx⟩
    · simp only [Option.some.injEq] at h
      subst h; rfl
    · have hnn : d ≠ .null := by
        intro hd
        exact never_null hin.2 (hd ▸ h)
      have hr := write_read sk t x d hin.1 hx h
      cases d <;> first | exact absurd rfl hnn | simp [hr]
  | .seq h t, v, d, hf, hv, hw => by
    refine both_run (h := hw) hf hv ?_
    intro hin h
    obtain ⟨vs, rfl, hvs⟩ := hv
    simp only [Option.map_eq_some_iff] at h
    obtain ⟨ds, hc, rfl⟩ := h
    simp only [collect_back (fun x hx d hd => write_read sk t x d hin (hvs x hx) hd) hc, Option.map_some]
  | .map h key t, v, d, hf, hv, hw => by
    refine both_run (h := hw) hf hv ?_
    intro hin h
    obtain ⟨es, rfl, hnd, hes⟩ := hv
    simp only [Option.map_eq_some_iff] at h
    obtain ⟨ms, hc, rfl⟩ := h
    have hnull : ∀ e ∈ es, (sk && isNull t e.2) = false := by
      intro e _
      cases sk with
      | false => rfl
      | true => simp [not_null_of_not_opt (hin.2.2 rfl)]
    have := readEntries_back (acc := []) hin.2.1 hnull
      (fun e he d hd => write_read sk t e.2 d hin.1 (hes e he) hd) (by simpa using hnd) hc
    simp only [this, List.nil_append, Option.map_some]
  | .tup h ts, v, d, hf, hv, hw => by
    refine both_run (h := hw) hf hv ?_
    intro hin h
    obtain ⟨vs, rfl, hvs⟩ := hv
    simp only [Option.map_eq_some_iff] at h
    obtain ⟨ds, hc, rfl⟩ := h
    have ⟨hlen, hr⟩ := writeTys_readTys sk ts vs ds [] hin hvs hc
    simp only [List.nil_append, List.length_nil] at hr
    simp only [hlen, Nat.lt_irrefl, if_false, hr, Option.map_some]
  | .set h eh names, v, d, hf, hv, hw => by
    refine both_run (h := hw) hf hv ?_
    intro hin h
    obtain ⟨bs, rfl, hlen⟩ := hv
    simp only [Option.map_eq_some_iff] at h
    obtain ⟨ds, hc, rfl⟩ := h
    have := readSet_back (g := (eh.onRead true).run (readEnum names)) bs []
      (f := fun i : Nat => (eh.onWrite true).run (fun v => (enumText names v).map .str) (.num i)) (ds := ds)
      (fun i d hd => both_run (h := hd) hin ⟨_, rfl⟩ (fun hnd h => readEnum_back hnd h)) hc
    simp only [List.nil_append] at this
    simp only [← hlen, this, Option.map_some]
  | .obj h fs, v, d, hf, hv, hw => by
    refine both_run (h := hw) hf hv ?_
    intro hin h
    obtain ⟨vs, rfl, hvs⟩ := hv
    simp only [Option.map_eq_some_iff] at h
    obtain ⟨ms, hc, rfl⟩ := h
    simp only [writeFlds_readFlds sk fs vs ms ms hin.1 hin.2 hvs hc (fun _ _ => rfl), Option.map_some]

theorem writeTys_readTys (sk : Bool) : ∀ (ts : Tys) (vs : List Val) (ds pre : List Doc),
    FaithfulTys sk ts → HasTys ts vs → writeTys sk ts vs = some ds →
    ts.length = ds.length ∧ readTys (pre ++ ds) ts pre.length = some vs
  | .nil, vs, ds, pre, _, hv, h => by
    simp only [HasTys] at hv
    subst hv
    simp only [writeTys, Option.some.injEq] at h
    subst h
    exact ⟨rfl, rfl⟩
  | .cons t rest, vs, ds, pre, hf, hv, h => by
    obtain ⟨v, vs', rfl, hvt, hvr⟩ := hv
    simp only [writeTys] at h
    split at h
    · cases h
    · rename_i d hd
      split at h
      · cases h
      · rename_i ds' hds
        simp only [Option.some.injEq] at h
        subst h
        have ⟨hlen, hr⟩ := writeTys_readTys sk rest vs' ds' (pre ++ [d]) hf.2 hvr hds
        have ht := write_read sk t v d hf.1 hvt hd
        have hi : atIndex (pre ++ d :: ds') pre.length = d := by simp [atIndex]
        refine ⟨by simp [Tys.length, hlen], ?_⟩
        simp only [List.append_assoc, List.singleton_append, List.length_append, List.length_singleton] at hr
        simp only [readTys, hi, ht, hr]

theorem writeFlds_readFlds (sk : Bool) : ∀ (fs : Flds) (vs : List Val) (ms Ms : List (String × Doc)),
    FaithfulFlds sk fs → (outNames fs).Nodup → HasFlds fs vs → writeFlds sk fs vs = some ms →
    (∀ n ∈ outNames fs, atField Ms n = atField ms n) → readFlds Ms fs = some vs
  | .nil, vs, ms, Ms, _, _, hv, _, _ => by
    simp only [HasFlds] at hv
    subst hv; rfl
  | .cons f t rest, vs, ms, Ms, hf, hnd, hv, h, hat => by
    obtain ⟨v, vs', rfl, hvt, hvr⟩ := hv
    simp only [outNames] at hnd hat
    have ⟨hnd1, hnd2, hdis⟩ := List.nodup_append.mp hnd
    simp only [writeFlds] at h
    split at h
    · rename_i hskip
      simp only [Bool.and_eq_true] at hskip
      obtain ⟨hsk, hnull⟩ := hskip
      obtain ⟨⟨hk, u, rfl⟩, rfl⟩ := isNull_opt hnull
      -- the field was left out: it is optional, so it is not flattened
      cases hfl : f.flat with
      | true =>
        have h1 := hf.1
        rw [if_pos hfl] at h1
        simp [FaithfulFlat] at h1
      | false =>
        have h1 := hf.1
        rw [if_neg (by simp [hfl])] at h1
        simp only [hfl, Bool.false_eq_true, if_false] at hat hdis
        have hmiss : f.name ∉ ms.map (·.1) := by
          intro hm
          exact hdis f.name (by simp) f.name (writeFlds_names sk rest vs' ms h f.name hm) rfl
        have hnullAt : atField Ms f.name = .null := by
          rw [hat f.name (by simp), atField_missing hmiss]
        have hr := writeFlds_readFlds sk rest vs' ms Ms hf.2 hnd2 hvr h
          (fun n hn => hat n (by simp [hn]))
        have hread : read (.opt hk u) .null = some .absent := by
          simp only [read]
          cases hs : hk.onRead true with
          | custom r => exact h1.2 hsk hk u r rfl hs
          | builtin => rfl
          | fails =>
            have := h1.1
            simp only [Faithful, hs] at this
            cases hw : hk.onWrite true <;> simp [hw, Both] at this
        simp only [readFlds, hfl, Bool.false_eq_true, if_false, hnullAt, hread, hr]
    · split at h
      · -- flattened
        rename_i hfl
        split at h
        · cases h
        · rename_i fms hw
          split at h
          · cases h
          · rename_i rs hrs
            simp only [Option.some.injEq] at h
            subst h
            have h1 := hf.1
            rw [if_pos hfl] at h1
            simp only [hfl, if_true] at hat hdis hnd1
            have hr := writeFlds_readFlds sk rest vs' rs Ms hf.2 hnd2 hvr hrs (by
              intro n hn
              rw [hat n (by simp [hn]), atField_append]
              rw [if_neg]
              intro hm
              exact hdis n (writeFlat_names sk t v fms hw n hm) n hn rfl)
            have ht := writeFlat_read sk t v fms Ms h1 hnd1 hvt hw (by
              intro n hn
              rw [hat n (by simp [hn]), atField_append]
              split
              · rfl
              · rename_i hnot
                rw [atField_missing hnot, atField_missing]
                intro hm
                exact hdis n hn n (writeFlds_names sk rest vs' rs hrs n hm) rfl)
            simp only [readFlds, hfl, if_true, ht, hr]
      · rename_i hfl
        split at h
        · cases h
        · rename_i d hd
          split at h
          · cases h
          · rename_i rs hrs
            simp only [Option.some.injEq] at h
            subst h
            have h1 := hf.1
            rw [if_neg (by simp [hfl])] at h1
            simp only [hfl, Bool.false_eq_true, if_false] at hat hdis
            have hr := writeFlds_readFlds sk rest vs' rs Ms hf.2 hnd2 hvr hrs (by
              intro n hn
              rw [hat n (by simp [hn])]
              have : ¬ f.name = n := hdis f.name (by simp) n hn
              simp [atField, this])
            have ha : atField Ms f.name = d := by
              rw [hat f.name (by simp)]; simp [atField]
            have ht := write_read sk t v d h1.1 hvt hd
            simp only [readFlds, hfl, Bool.false_eq_true, if_false, ha, ht, hr]

theorem writeFlat_read (sk : Bool) : ∀ (t : Ty) (v : Val) (ms Ms : List (String × Doc)),
    FaithfulFlat sk t → (flatNames t).Nodup → HasTy t v → writeFlat sk t v = some ms →
    (∀ n ∈ flatNames t, atField Ms n = atField ms n) → read t (.obj Ms) = some v
  | .obj h fs, v, ms, Ms, hf, hnd, hv, hw, hat => by
    obtain ⟨vs, rfl, hvs⟩ := hv
    simp only [read, hf.1, Sel.run]
    simp only [writeFlds_readFlds sk fs vs ms Ms hf.2 hnd hvs hw hat, Option.map_some]
  | .opq _, _, _, _, hf, _, _, _, _ => hf.elim
  | .num _, _, _, _, hf, _, _, _, _ => hf.elim
  | .str _, _, _, _, hf, _, _, _, _ => hf.elim
  | .enm _ _, _, _, _, hf, _, _, _, _ => hf.elim
  | .opt _ _, _, _, _, hf, _, _, _, _ => hf.elim
  | .seq _ _, _, _, _, hf, _, _, _, _ => hf.elim
  | .map _ _ _, _, _, _, hf, _, _, _, _ => hf.elim
  | .tup _ _, _, _, _, hf, _, _, _, _ => hf.elim
  | .set _ _ _, _, _, _, hf, _, _, _, _ => hf.elim
end

end Verif.Custom
