import Verif.Rest.Spec
import Verif.Rest.Holds
import Verif.Serial.Props
/-
Requests keep the object of its type; the document of a node is a part of the document of a
node above.
-/
namespace Verif.Rest
open Verif.Path Verif.Path.Spec Verif.Serial.Spec Verif.Rest.Spec
open Verif.Resource (Tracked PathTo Setup Edit Request serve)
open Verif.Resource.Spec (Leads LeadsTo Step Changed)

variable {σ : Type} {Γ : Table} {B : Serial.Backend σ} {E : Serial.Env} {U : User}
variable {T : Resource.Ty} {r : Resource.Resource} {hist : List Tracker.Spec.Note}

theorem Spec.Service.setup (hB : Lawful B) (h : Service Γ T r hist) : Setup (env Γ B E U) T r hist :=
  ⟨env_typed Γ hB E U, ⟨h.ok, holds_typed h.val⟩, h.told⟩

theorem Spec.Service.at (h : Service Γ T r hist) {p : List Seg} {steps : List Step} {t : Resource.Ty}
    {u : Resource.Value} (hl : LeadsTo (env Γ B E U) T r.value p steps t u) : holds Γ t u = true :=
  leads_holds hl h.val

theorem Spec.Service.edit (h : Service Γ T r hist) {r' : Resource.Resource} {c : List Seg} {steps : List Step}
    {t : Resource.Ty} {old new : Resource.Value} {sub : Bool}
    (he : Edit (env Γ B E U) T r r' hist c steps t old new sub) (hn : holds Γ t new = true) :
    Service Γ T r' (hist ++ [(c, sub)]) :=
  ⟨h.ok, changed_holds he.leads h.val hn he.changed, he.told⟩

theorem holds_snoc {k : Resource.SeqKind} {t : Resource.Ty} {vs : List Resource.Value} {x : Resource.Value}
    (h : holds Γ (.seq k t) (.seq vs) = true) (hx : holds Γ t x = true) :
    holds Γ (.seq k t) (.seq (vs ++ [x])) = true := by
  obtain ⟨g1, g2, g3⟩ := holds_seq.1 h
  refine holds_seq.2 ⟨g1, g2, fun v hv => ?_⟩
  rcases List.mem_append.1 hv with hv | hv
  · exact g3 v hv
  · rw [List.mem_singleton.1 hv]; exact hx

theorem holds_opt_none {t : Resource.Ty} {u : Option Resource.Value} (h : holds Γ (.opt t) (.opt u) = true) :
    holds Γ (.opt t) (.opt none) = true := by
  cases u with
  | none => exact h
  | some v => rw [holds_some] at h; rw [holds_none]; exact holds_good h

/-- One request. -/
theorem Spec.Service.serve (hB : Lawful B) (h : Service Γ T r hist) (q : Request (Serial.Doc σ)) (p : List Seg)
    (hp : q.At p) : (Resource.serve (env Γ B E U) T r q).2 ≠ .stuck ∧
      ∃ notes, Service Γ T (Resource.serve (env Γ B E U) T r q).1 (hist ++ notes) := by
  have hs := h.setup hB (E := E) (U := U)
  refine ⟨(Resource.C71_served hs q p hp).1, ?_⟩
  by_cases hsu : Resource.Spec.Success (Resource.serve (env Γ B E U) T r q).2
  · cases q with
    | put w b =>
      obtain ⟨st, t, old, new, he, hf, _⟩ := Resource.put_edit hs.typed.deser hs.wt (hs.put hp b) hsu
      exact ⟨_, h.edit he (deser_holds hB hf).1⟩
    | patch w b =>
      obtain ⟨st, t, old, new, he, hf, _⟩ := Resource.put_edit hs.typed.patch hs.wt (hs.patch hp b) hsu
      exact ⟨_, h.edit he (patch_holds hB hf).1⟩
    | post w b =>
      obtain ⟨st, k, t, vs, x, he, hf, _⟩ := Resource.post_edit hs.typed hs.wt (hs.post hp b) hsu
      exact ⟨_, h.edit he (holds_snoc (h.at he.leads) (deser_holds hB hf).1)⟩
    | del w =>
      rcases (Resource.del_edit hs.wt (hs.del hp) hsu).2 with
        ⟨c, s, st, t, u, x, t1, u1, e, ht, l1, _, _, he⟩ | ⟨st, t, u, hn, he⟩
      · exact ⟨_, h.edit he (without_holds _ ht (h.at he.leads))⟩
      · exact ⟨_, h.edit he (holds_opt_none (h.at he.leads))⟩
  · refine ⟨[], ?_⟩
    rw [List.append_nil]
    cases q with
    | put w b => rw [Resource.serve, Resource.C30_put hs w p hp b hsu]; exact h
    | patch w b => rw [Resource.serve, Resource.C30_patch hs w p hp b hsu]; exact h
    | post w b => rw [Resource.serve, Resource.C30_post hs w p hp b hsu]; exact h
    | del w => rw [Resource.serve, Resource.C30_del hs w p hp hsu]; exact h

theorem Spec.Service.serveAll (hB : Lawful B) (qs : List (Request (Serial.Doc σ))) (hq : ∀ q ∈ qs, ∃ p, q.At p) :
    ∀ {r : Resource.Resource} {hist : List Tracker.Spec.Note}, Service Γ T r hist →
    (∀ o ∈ (Resource.serveAll (env Γ B E U) T r qs).2, o ≠ .stuck) ∧
      ∃ notes, Service Γ T (Resource.serveAll (env Γ B E U) T r qs).1 (hist ++ notes) := by
  induction qs with
  | nil => exact fun h => ⟨by simp [Resource.serveAll], [], by simpa [Resource.serveAll] using h⟩
  | cons q qs ih =>
    intro r hist h
    obtain ⟨p, hp⟩ := hq q (by simp)
    obtain ⟨h1, n1, h2⟩ := h.serve hB (E := E) (U := U) q p hp
    obtain ⟨h3, n2, h4⟩ := ih (fun q hq' => hq q (by simp [hq'])) h2
    simp only [Resource.serveAll]
    refine ⟨?_, n1 ++ n2, by rw [← List.append_assoc]; exact h4⟩
    intro o ho
    rcases List.mem_cons.1 ho with rfl | ho
    · exact h1
    · exact h3 o ho

/-! ### Parts -/

/-- The member written for a field. -/
theorem writes_field {write : Serial.Ty → Serial.Value → Serial.Doc σ → Prop} {s : Bool} {id : Nat} :
    ∀ {fs : Resource.Fields} {i j : Nat} {vs : List Resource.Value} {out : List (Str × Serial.Doc σ)}
      {a : Resource.Attrs} {t : Resource.Ty} {v : Resource.Value},
    WritesFields write s (serFields Γ id i fs) (viewFields Γ id i fs vs) out →
    (Resource.Spec.fieldList fs)[j]? = some (a, t) → vs[j]? = some v → (Γ.field id (i + j)).extra = false →
    (Γ.field id (i + j)).flatten = false → omitted s (Γ.field id (i + j)) (view Γ t v) = false →
    ∃ d, write (serTy Γ t) (view Γ t v) d ∧ ((Γ.field id (i + j)).key, d) ∈ out
  | .nil, _, _, _, _, _, _, _, _, h, _, _, _, _ => by simp [Resource.Spec.fieldList] at h
  | .cons b u fs, i, j, [], _, _, _, _, _, _, h, _, _, _ => by simp at h
  | .cons b u fs, i, 0, w :: vs, out, a, t, v, h, h1, h2, h3, h4, h5 => by
    simp only [Resource.Spec.fieldList, List.getElem?_cons_zero, Option.some.injEq, Prod.mk.injEq] at h1 h2
    obtain ⟨rfl, rfl⟩ := h1
    subst h2
    simp only [serFields, viewFields, WritesFields] at h
    obtain ⟨v', ws, o1, o2, e, rfl, -, -, -, h6, -⟩ := h
    simp only [List.cons.injEq] at e
    obtain ⟨rfl, rfl⟩ := e
    obtain ⟨d, hd, rfl⟩ := h6 h5 h3 h4
    exact ⟨d, hd, by simp⟩
  | .cons b u fs, i, j + 1, w :: vs, out, a, t, v, h, h1, h2, h3, h4, h5 => by
    simp only [Resource.Spec.fieldList, List.getElem?_cons_succ] at h1 h2
    simp only [serFields, viewFields, WritesFields] at h
    obtain ⟨v', ws, o1, o2, e, rfl, -, -, -, -, h6⟩ := h
    simp only [List.cons.injEq] at e
    obtain ⟨rfl, rfl⟩ := e
    rw [show i + (j + 1) = i + 1 + j from by omega] at h3 h4 h5 ⊢
    obtain ⟨d, hd, hm⟩ := writes_field h6 h1 h2 h3 h4 h5
    exact ⟨d, hd, by simp [hm]⟩

theorem first_of_mem {α : Type} {ms : List (Str × α)} (hn : (ms.map (·.1)).Nodup) {k : Str} {d : α}
    (h : (k, d) ∈ ms) : First ms k d := by
  obtain ⟨a, b, rfl⟩ := List.append_of_mem h
  refine ⟨a, b, rfl, fun m hm e => ?_⟩
  rw [List.map_append, List.map_cons, List.nodup_append] at hn
  exact hn.2.2 m.1 (List.mem_map_of_mem hm) k (by simp) e

theorem each_get {α β : Type} {R : α → β → Prop} {l : List α} {m : List β} (h : Each R l m) :
    ∀ {i : Nat} {x : α}, l[i]? = some x → ∃ y, m[i]? = some y ∧ R x y := by
  induction h with
  | nil => intro i x h; simp at h
  | cons hr _ ih =>
    intro i x h
    cases i with
    | zero => cases h; exact ⟨_, rfl, hr⟩
    | succ i => exact ih (by simpa using h)

theorem leads_part (hB : Lawful B) {s : Bool} {β : Type} {Ev : Resource.Env β} {ks : List Nat} {t : Resource.Ty}
    {v : Resource.Value} {path : List Str} {steps : List Step} {t' : Resource.Ty} {v' : Resource.Value}
    (h : Leads Ev ks t v path steps t' v') : holds Γ t v = true → Shown Γ s t v steps →
    ∀ {d : Serial.Doc σ}, Serial.ser B s (serTy Γ t) (view Γ t v) = .ok d →
      ∃ d', Part path steps d d' ∧ Serial.ser B s (serTy Γ t') (view Γ t' v') = .ok d' := by
  induction h with
  | here => exact fun _ _ d hd => ⟨d, .here, hd⟩
  | @field ks id fs vs i a t v path steps t' v' h1 _ h3 _ ih =>
    intro hh hs d hd
    cases hs with
    | field g1 g2 g3 g4 g5 g6 =>
      rw [h1] at g1; cases g1
      rw [h3] at g2; cases g2
      obtain ⟨hf, hk⟩ := holds_field hh h1 h3
      obtain ⟨g7, g8, g9⟩ := holds_iff.1 hh
      have hu := Serial.ser_unique hB _ g7 _ _ g9 hd
      simp only [serTy, view] at hd
      obtain ⟨ws, out, e, rfl, hw⟩ := Serial.ser_record hB hd
      simp only [Serial.Value.record.injEq] at e
      subst e
      obtain ⟨d1, hd1, hm⟩ := writes_field hw h1 h3 (by rwa [Nat.zero_add]) (by rwa [Nat.zero_add])
        (by rwa [Nat.zero_add])
      rw [Nat.zero_add, hk] at hm
      obtain ⟨d', hp, hd'⟩ := ih hf g6 hd1
      simp only [uniqueNames, Bool.and_eq_true, decide_eq_true_eq] at hu
      exact ⟨d', .field (first_of_mem hu.1 hm) hp, hd'⟩
  | unwrap _ ih =>
    intro hh hs d hd
    cases hs with
    | unwrap g =>
      rw [holds_some] at hh
      simp only [serTy, view, Serial.ser] at hd
      obtain ⟨d', hp, hd'⟩ := ih hh g hd
      exact ⟨d', .unwrap hp, hd'⟩
  | @entry ks er t es i s' v path steps t' v' h1 _ ih =>
    intro hh hs d hd
    cases hs with
    | @entry _ _ _ _ e _ g1 g2 g3 =>
      rw [h1] at g1; cases g1
      obtain ⟨g7, g8, g9⟩ := holds_iff.1 hh
      have hu := Serial.ser_unique hB _ g7 _ _ g9 hd
      simp only [serTy, view] at hd
      obtain ⟨out, rfl, hw⟩ := (Serial.ser_map hB).1 hd
      have hmem : (s', view Γ t v) ∈ (es.map fun e => (e.1, view Γ t e.2)).filter
          fun e => !(s && Serial.isNullValue e.2) := by
        rw [List.mem_filter]
        refine ⟨List.mem_map.2 ⟨(s', v), List.mem_of_getElem? h1, rfl⟩, ?_⟩
        rw [g2]; rfl
      obtain ⟨j, hj⟩ := List.mem_iff_getElem?.1 hmem
      obtain ⟨m, hm, hm1, hm2⟩ := each_get hw hj
      obtain ⟨mk, md⟩ := m
      simp only at hm1 hm2
      subst hm1
      obtain ⟨d', hp, hd'⟩ := ih ((holds_map.1 hh).2.2 _ (List.mem_of_getElem? h1)) g3 hm2
      simp only [uniqueNames, Bool.and_eq_true, decide_eq_true_eq] at hu
      exact ⟨d', .entry (first_of_mem hu.1 (List.mem_of_getElem? hm)) hp, hd'⟩
  | @item k t vs i s' v path steps t' v' _ _ h3 _ ih =>
    intro hh hs d hd
    cases hs with
    | item g1 g2 =>
      rw [h3] at g1; cases g1
      simp only [serTy, view] at hd
      obtain ⟨l, rfl, hw⟩ := Serial.ser_vec.1 hd
      obtain ⟨d1, hm, hd1⟩ := each_get hw (i := i) (x := view Γ t v) (by simp [h3])
      obtain ⟨d', hp, hd'⟩ := ih ((holds_seq.1 hh).2.2 _ (List.mem_of_getElem? h3)) g2 hd1
      exact ⟨d', .item hm hp, hd'⟩
  | @child ks k t vs key i s' v path steps t' v' _ h3 _ ih =>
    intro hh hs d hd
    cases hs with
    | child g1 g2 =>
      rw [h3] at g1; cases g1
      simp only [serTy, view] at hd
      obtain ⟨l, rfl, hw⟩ := Serial.ser_vec.1 hd
      obtain ⟨d1, hm, hd1⟩ := each_get hw (i := i) (x := view Γ t v) (by simp [h3])
      obtain ⟨d', hp, hd'⟩ := ih ((holds_seq.1 hh).2.2 _ (List.mem_of_getElem? h3)) g2 hd1
      exact ⟨d', .child hm hp, hd'⟩

end Verif.Rest
