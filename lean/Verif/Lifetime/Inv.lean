import Verif.Lifetime.Reads
/-
What holds in every world of a program on documents.
-/
namespace Verif.Lifetime
open Verif.Path

structure Inv (w : World) (lent : List Mem) : Prop where
  doc : ∀ (d : Nat) (x : Document), w.docs[d]? = some x →
    x.root.within x.alloc ∧ x.alloc < w.pools ∧ ∀ m ∈ x.root.consts, m = .static ∨ m ∈ lent
  unique : ∀ (d e : Nat) (x y : Document), Has w d x → Has w e y → x.alloc = y.alloc → d = e
  same : ∀ (d e : Nat) (x y : Document), w.docs[d]? = some x → w.docs[e]? = some y → x.alloc = y.alloc →
    x.root = y.root
  obj : ∀ v ∈ w.objs, ∀ m ∈ v.lends, m ∈ lent

theorem inv_start (short : Nat) : Inv (start short) [] where
  doc := by simp [start]
  unique := by simp [start, Has]
  same := by simp [start]
  obj := by simp [start]

theorem Inv.mono {w : World} {l l' : List Mem} (h : Inv w l) (hs : ∀ m ∈ l, m ∈ l') : Inv w l' where
  doc d x hx := ⟨(h.doc d x hx).1, (h.doc d x hx).2.1, fun m hm => ((h.doc d x hx).2.2 m hm).imp id (hs m)⟩
  unique := h.unique
  same := h.same
  obj v hv m hm := hs m (h.obj v hv m hm)

/-! ### Views -/

theorem getD_consts {m : Mem} : ∀ {l : Docs} {i : Nat} {d : Doc}, l.get? i = some d → m ∈ d.consts → m ∈ l.consts
  | .nil, _, _, h, _ => by simp [Docs.get?] at h
  | .cons _ _, 0, _, h, hm => by
    simp only [Docs.get?, Option.some.injEq] at h
    subst h
    simp [Docs.consts, hm]
  | .cons _ l, i + 1, _, h, hm => by
    simp only [Docs.get?] at h
    simp [Docs.consts, getD_consts h hm]

theorem getM_consts {m : Mem} : ∀ {l : Mems} {i : Nat} {d : Doc}, l.get? i = some d → m ∈ d.consts → m ∈ l.consts
  | .nil, _, _, h, _ => by simp [Mems.get?] at h
  | .cons _ _ _, 0, _, h, hm => by
    simp only [Mems.get?, Option.some.injEq] at h
    subst h
    simp [Mems.consts, hm]
  | .cons _ _ l, i + 1, _, h, hm => by
    simp only [Mems.get?] at h
    simp [Mems.consts, getM_consts h hm]

theorem follow_consts {m : Mem} : ∀ {p : List Nat} {d e : Doc}, d.follow p = some e → m ∈ e.consts → m ∈ d.consts
  | [], d, e, h, hm => by
    simp only [Doc.follow, Option.some.injEq] at h
    subst h
    exact hm
  | i :: p, .null, _, h, _ => by simp [Doc.follow] at h
  | i :: p, .num _, _, h, _ => by simp [Doc.follow] at h
  | i :: p, .str _, _, h, _ => by simp [Doc.follow] at h
  | i :: p, .arr _ l, e, h, hm => by
    simp only [Doc.follow] at h
    split at h
    · next d' hd => exact getD_consts hd (follow_consts h hm)
    · cases h
  | i :: p, .obj _ l, e, h, hm => by
    simp only [Doc.follow] at h
    split at h
    · next d' hd => exact getM_consts hd (follow_consts h hm)
    · cases h

theorem follow_append {i : Nat} : ∀ {p : List Nat} {d e : Doc}, d.follow p = some e →
    d.follow (p ++ [i]) = e.follow [i]
  | [], d, e, h => by
    simp only [Doc.follow, Option.some.injEq] at h
    subst h
    rfl
  | j :: p, .null, _, h => by simp [Doc.follow] at h
  | j :: p, .num _, _, h => by simp [Doc.follow] at h
  | j :: p, .str _, _, h => by simp [Doc.follow] at h
  | j :: p, .arr _ l, e, h => by
    simp only [Doc.follow] at h
    split at h
    · next d' hd =>
      simp only [List.cons_append, Doc.follow, hd]
      rw [follow_append h]
    · cases h
  | j :: p, .obj _ l, e, h => by
    simp only [Doc.follow] at h
    split at h
    · next d' hd =>
      simp only [List.cons_append, Doc.follow, hd]
      rw [follow_append h]
    · cases h

theorem owner_some {w : World} {a : Nat} {x : Document} (h : owner w a = some x) :
    x.alloc = a ∧ ∃ d, Has w d x := by
  unfold owner at h
  have h1 := List.find?_some h
  have h2 := List.mem_of_find?_eq_some h
  simp only [Bool.and_eq_true, beq_iff_eq] at h1
  obtain ⟨d, hd⟩ := List.getElem?_of_mem h2
  exact ⟨h1.1, d, hd, h1.2⟩

theorem owner_has {w : World} {lent : List Mem} (hi : Inv w lent) {d : Nat} {x : Document} (h : Has w d x) :
    owner w x.alloc = some x := by
  have hm : x ∈ w.docs := List.mem_of_getElem? h.1
  have : (owner w x.alloc).isSome := by
    unfold owner
    rw [List.find?_isSome]
    exact ⟨x, hm, by simp [h.2]⟩
  obtain ⟨y, hy⟩ := Option.isSome_iff_exists.1 this
  obtain ⟨h1, e, he⟩ := owner_some hy
  have := hi.unique d e x y h he h1.symm
  subst this
  have := h.1.symm.trans he.1
  cases this
  exact hy

theorem deref_consts {w : World} {lent : List Mem} (hi : Inv w lent) {l : Loc} {d : Doc} (h : deref w l = some d)
    {m : Mem} (hm : m ∈ d.consts) : m = .static ∨ m ∈ lent := by
  cases l with
  | null =>
    simp only [deref, Option.some.injEq] at h
    subst h
    simp [Doc.consts] at hm
  | root e =>
    simp only [deref] at h
    split at h
    · next x hx =>
      split at h
      · cases h; exact (hi.doc e x hx).2.2 m hm
      · cases h
    · cases h
  | node a p =>
    simp only [deref] at h
    split at h
    · next x hx =>
      obtain ⟨_, e, he⟩ := owner_some hx
      exact (hi.doc e x he.1).2.2 m (follow_consts h hm)
    · cases h

theorem shown_consts {w : World} {lent : List Mem} (hi : Inv w lent) {ls : List Loc} {m : Mem} (h : Shown w ls m) :
    m = .static ∨ m ∈ lent := by
  obtain ⟨l, _, d, hd, hm⟩ := h
  exact deref_consts hi hd hm

/-! ### Steps -/

theorem live_pool {w : World} {d : Nat} {x : Document} (h : Has w d x) : live w (.pool x.alloc) = true := by
  simp only [live, poolLive, List.any_eq_true]
  exact ⟨x, List.mem_of_getElem? h.1, by simp [h.2]⟩

theorem live_object {w : World} {d : Nat} {x : Document} (h : Has w d x) : live w (.object d) = true := by
  simp [live, intact, h.1, h.2]

theorem getElem?_snoc {α : Type} {l : List α} {a b : α} {i : Nat} (h : (l ++ [a])[i]? = some b) :
    l[i]? = some b ∨ i = l.length ∧ b = a := by
  rcases Nat.lt_trichotomy i l.length with hi | hi | hi
  · rw [List.getElem?_append_left hi] at h; exact .inl h
  · subst hi; simp at h; exact .inr ⟨rfl, h.symm⟩
  · rw [List.getElem?_eq_none (by simp; omega)] at h; cases h

theorem inv_addDoc {w : World} {lent : List Mem} (hi : Inv w lent) {d : Doc} (hw : d.within w.pools)
    (hc : ∀ m ∈ d.consts, m = .static ∨ m ∈ lent) : Inv (w.addDoc d) lent where
  doc e x hx := by
    rcases getElem?_snoc hx with h | ⟨_, rfl⟩
    · obtain ⟨h1, h2, h3⟩ := hi.doc e x h
      exact ⟨h1, Nat.lt_succ_of_lt h2, h3⟩
    · exact ⟨hw, Nat.lt_succ_self _, hc⟩
  unique e f x y hx hy hxy := by
    rcases getElem?_snoc hx.1 with h | ⟨h, rfl⟩ <;> rcases getElem?_snoc hy.1 with h' | ⟨h', rfl⟩
    · exact hi.unique e f x y ⟨h, hx.2⟩ ⟨h', hy.2⟩ hxy
    · have := (hi.doc e x h).2.1; dsimp only at hxy; omega
    · have := (hi.doc f y h').2.1; dsimp only at hxy; omega
    · exact h.trans h'.symm
  same e f x y hx hy hxy := by
    rcases getElem?_snoc hx with h | ⟨h, rfl⟩ <;> rcases getElem?_snoc hy with h' | ⟨h', rfl⟩
    · exact hi.same e f x y h h' hxy
    · have := (hi.doc e x h).2.1; dsimp only at hxy; omega
    · have := (hi.doc f y h').2.1; dsimp only at hxy; omega
    · rfl
  obj := hi.obj

theorem inv_addObj {w : World} {lent : List Mem} (hi : Inv w lent) {v : Val} (hv : ∀ m ∈ v.lends, m ∈ lent) :
    Inv { w with objs := w.objs ++ [v] } lent where
  doc := hi.doc
  unique := hi.unique
  same := hi.same
  obj u hu m hm := by
    rcases List.mem_append.1 hu with h | h
    · exact hi.obj u h m hm
    · rw [List.mem_singleton] at h; subst h; exact hv m hm

theorem getElem?_set' {α : Type} {l : List α} {a b : α} {i j : Nat} (h : (l.set i a)[j]? = some b) :
    (i ≠ j ∧ l[j]? = some b) ∨ (i = j ∧ b = a ∧ i < l.length) := by
  rw [List.getElem?_set] at h
  split at h
  · next hij =>
    split at h
    · cases h; exact .inr ⟨hij, rfl, by assumption⟩
    · cases h
  · next hij => exact .inl ⟨hij, h⟩

theorem inv_setDoc {w : World} {lent : List Mem} (hi : Inv w lent) {d : Nat} {x : Document} {s : Status}
    (hx : w.docs[d]? = some x) (hs : s ≠ .intact) : Inv (w.setDoc d { x with status := s }) lent where
  doc e y hy := by
    rcases getElem?_set' hy with ⟨_, h⟩ | ⟨_, rfl, _⟩
    · exact hi.doc e y h
    · exact hi.doc d x hx
  unique e f y z hy hz hyz := by
    rcases getElem?_set' hy.1 with ⟨_, h⟩ | ⟨_, rfl, _⟩
    · rcases getElem?_set' hz.1 with ⟨_, h'⟩ | ⟨_, rfl, _⟩
      · exact hi.unique e f y z ⟨h, hy.2⟩ ⟨h', hz.2⟩ hyz
      · exact absurd hz.2 hs
    · exact absurd hy.2 hs
  same e f y z hy hz hyz := by
    rcases getElem?_set' hy with ⟨_, h⟩ | ⟨_, rfl, _⟩ <;> rcases getElem?_set' hz with ⟨_, h'⟩ | ⟨_, rfl, _⟩
    · exact hi.same e f y z h h' hyz
    · exact hi.same e d y x h hx hyz
    · exact hi.same d f x z hx h' hyz
    · rfl
  obj := hi.obj

mutual
theorem all_lends : ∀ {v : Val}, v.all (fun v => v.lends = []) (fun k => k.lends = []) → v.lends = []
  | .none, h => h
  | .num _, h => h
  | .str _, h => h
  | .sv _ _, h => h
  | .sref _ _, h => h
  | .view _, h => h
  | .seq l, h => by simp only [Val.lends]; exact alls_lends h
  | .map l, h => by simp only [Val.lends]; exact allEnts_lends h
  | .record l, h => by simp only [Val.lends]; exact allFlds_lends h
theorem alls_lends : ∀ {v : Vals}, v.all (fun v => v.lends = []) (fun k => k.lends = []) → v.lends = []
  | .nil, _ => rfl
  | .cons v l, h => by simp only [Vals.lends, all_lends h.1, alls_lends h.2, List.append_nil]
theorem allEnts_lends : ∀ {v : Ents}, v.all (fun v => v.lends = []) (fun k => k.lends = []) → v.lends = []
  | .nil, _ => rfl
  | .cons k v l, h => by
    simp only [Ents.lends, all_lends h.2.1, allEnts_lends h.2.2, List.append_nil]
    exact h.1
theorem allFlds_lends : ∀ {v : Flds}, v.all (fun v => v.lends = []) (fun k => k.lends = []) → v.lends = []
  | .nil, _ => rfl
  | .cons _ _ v l, h => by simp only [Flds.lends, all_lends h.1, allFlds_lends h.2, List.append_nil]
end

/-- Nothing that is read is handed over by pointer. -/
theorem deser_lends {t : Ty} {l : Loc} {d : Doc} {v : Val} (h : deser t l d = some v) : v.lends = [] := by
  refine all_lends (deser_all (Q := fun _ _ => True) ⟨trivial, fun _ _ => trivial, fun _ _ => trivial⟩ ?_ trivial h)
  exact { none := rfl, num := fun _ => rfl, str := fun _ => rfl, sv0 := rfl, view0 := rfl, own := fun _ => rfl,
          sv := fun _ => rfl, view := fun _ => rfl, key := fun _ _ => rfl }

theorem memberName_some {w : World} {a : Nat} {m : Member} {k : JStr} (h : memberName w a m = some k) :
    k.text = m.name ∧ k.within a ∧ ∀ x ∈ k.consts, m.dynamic = false ∧ x = m.mem := by
  simp only [memberName, Option.map_eq_some_iff] at h
  obtain ⟨s, h1, rfl⟩ := h
  obtain ⟨rfl, _⟩ := readStr_some h1
  split
  · exact ⟨copyStr_text _ _ _, copyStr_within _ _ _, by simp [copyStr_consts]⟩
  · next hd => exact ⟨rfl, trivial, by simpa [JStr.consts] using hd⟩

theorem build_made {w : World} {a : Nat} {sn : Bool} {lent : List Mem} (hi : Inv w lent) :
    ∀ {ms : List Member} {r : Mems}, build w a sn ms = some r →
      r.within a ∧ ∀ m ∈ r.consts, m = .static ∨ m ∈ lent ++ (ms.filter fun m => !m.dynamic).map (·.mem)
  | [], r, h => by
    simp only [build, Option.some.injEq] at h
    subst h
    exact ⟨trivial, by simp [Mems.consts]⟩
  | m :: ms, r, h => by
    simp only [build] at h
    split at h
    · cases h
    · next v hv =>
      split at h
      · next k d hk hd =>
        simp only [Option.map_eq_some_iff] at h
        obtain ⟨r', h1, rfl⟩ := h
        obtain ⟨h2, h3⟩ := build_made hi h1
        obtain ⟨_, h4, h5⟩ := memberName_some hk
        obtain ⟨_, h6⟩ := ser_made hd
        refine ⟨⟨h4, h6.within, h2⟩, fun x hx => ?_⟩
        simp only [Mems.consts, List.mem_append] at hx
        rcases hx with hx | hx | hx
        · obtain ⟨h7, rfl⟩ := h5 x hx
          exact .inr (List.mem_append_right _ (List.mem_map.2 ⟨m, by simp [h7], rfl⟩))
        · rcases h6.consts x hx with h | h | h
          · exact .inl h
          · exact .inr (List.mem_append_left _ (hi.obj v (List.mem_of_getElem? hv) x h))
          · exact (shown_consts hi h).imp id (List.mem_append_left _)
        · refine (h3 x hx).imp id fun h => ?_
          rcases List.mem_append.1 h with h | h
          · exact List.mem_append_left _ h
          · refine List.mem_append_right _ ?_
            obtain ⟨y, hy, rfl⟩ := List.mem_map.1 h
            refine List.mem_map.2 ⟨y, ?_, rfl⟩
            rw [List.filter_cons]
            split
            · exact List.mem_cons_of_mem _ hy
            · exact hy
      · cases h

theorem step_inv {w w' : World} {lent : List Mem} {op : Op} (hi : Inv w lent) (h : step w op = .ok w') :
    Inv w' (lent ++ op.lends) := by
  have hm : ∀ m ∈ lent, m ∈ lent ++ op.lends := fun _ => List.mem_append_left _
  cases op with
  | parse t =>
    simp only [step, Out.ok.injEq] at h
    subst h
    exact (inv_addDoc hi (own_within _ _ _) (by simp [own_consts])).mono hm
  | ser o sn =>
    simp only [step] at h
    split at h
    · cases h
    · next v hv =>
      split at h
      · split at h
        · cases h
        · next d hd =>
          cases h
          obtain ⟨_, h6⟩ := ser_made hd
          refine (inv_addDoc hi h6.within fun m hx => ?_).mono hm
          rcases h6.consts m hx with h | h | h
          · exact .inl h
          · exact .inr (hi.obj v (List.mem_of_getElem? hv) m h)
          · exact shown_consts hi h
      · cases h
  | build ms sn =>
    simp only [step] at h
    split at h
    · split at h
      · cases h
      · next r hr =>
        cases h
        obtain ⟨h1, h2⟩ := build_made hi hr
        exact inv_addDoc (hi.mono hm) ⟨rfl, h1⟩ h2
    · cases h
  | deser d t =>
    simp only [step] at h
    split at h
    · cases h
    · next x hx =>
      split at h
      · split at h
        · split at h
          · cases h
          · next v hv =>
            cases h
            exact (inv_addObj hi (by simp [deser_lends hv])).mono hm
        · cases h
      · cases h
  | object v =>
    simp only [step] at h
    split at h
    · cases h
      exact inv_addObj (hi.mono hm) fun m hm => List.mem_append_right _ hm
    · cases h
  | buf s =>
    simp only [step, Out.ok.injEq] at h
    subst h
    refine Inv.mono ?_ hm
    exact ⟨hi.doc, hi.unique, hi.same, hi.obj⟩
  | free b =>
    simp only [step, Out.ok.injEq] at h
    subst h
    refine Inv.mono ?_ hm
    exact ⟨hi.doc, hi.unique, hi.same, hi.obj⟩
  | move d =>
    simp only [step] at h
    split at h
    · cases h
    · next x hx =>
      split at h
      · next hs =>
        cases h
        refine Inv.mono ?_ hm
        have h1 := inv_setDoc hi (s := .moved) hx (by simp)
        have hd : d < w.docs.length := (List.getElem?_eq_some_iff.1 hx).1
        refine ⟨fun e y hy => ?_, fun e f y z hy hz hyz => ?_, fun e f y z hy hz hyz => ?_, hi.obj⟩
        · rcases getElem?_snoc hy with h | ⟨_, rfl⟩
          · exact h1.doc e y h
          · exact hi.doc d _ hx
        · have key : ∀ (e : Nat) (y : Document), (w.docs.set d { x with status := .moved })[e]? = some y →
              y.status = .intact → y.alloc = x.alloc → False := by
            intro e y hy hys hya
            rcases getElem?_set' hy with ⟨hne, h⟩ | ⟨_, rfl, _⟩
            · exact hne (hi.unique d e x y ⟨hx, hs⟩ ⟨h, hys⟩ hya.symm)
            · cases hys
          rcases getElem?_snoc hy.1 with h | ⟨h, rfl⟩ <;> rcases getElem?_snoc hz.1 with h' | ⟨h', rfl⟩
          · exact h1.unique e f y z ⟨h, hy.2⟩ ⟨h', hz.2⟩ hyz
          · exact (key e y h hy.2 hyz).elim
          · exact (key f z h' hz.2 hyz.symm).elim
          · exact h.trans h'.symm
        · have key : ∀ (e : Nat) (y : Document), (w.docs.set d { x with status := .moved })[e]? = some y →
              y.alloc = x.alloc → y.root = x.root := by
            intro e y hy hya
            rcases getElem?_set' hy with ⟨_, h⟩ | ⟨_, rfl, _⟩
            · exact hi.same e d y x h hx hya
            · rfl
          rcases getElem?_snoc hy with h | ⟨h, rfl⟩ <;> rcases getElem?_snoc hz with h' | ⟨h', rfl⟩
          · exact h1.same e f y z h h' hyz
          · exact key e y h hyz
          · exact (key f z h' hyz.symm).symm
          · rfl
      · cases h
  | drop d =>
    simp only [step] at h
    split at h
    · cases h
    · next x hx =>
      split at h
      · cases h
      · cases h
        exact (inv_setDoc hi (s := .destroyed) hx (by simp)).mono hm
  | read d =>
    simp only [step] at h
    split at h
    · cases h
    · split at h
      · split at h
        · cases h; exact hi.mono hm
        · cases h
      · cases h

theorem runs_inv {w w' : World} {lent : List Mem} {ops : List Op} (h : Runs w ops w') (hi : Inv w lent) :
    Inv w' (lent ++ ops.flatMap Op.lends) := by
  induction h generalizing lent with
  | nil w => simpa using hi
  | ok hs _ ih =>
    have := ih (step_inv hi hs)
    simpa [List.flatMap_cons, List.append_assoc] using this
  | threw _ _ ih =>
    refine (ih hi).mono fun m hm => ?_
    simp only [List.flatMap_cons, List.mem_append] at hm ⊢
    rcases hm with h | h
    · exact .inl h
    · exact .inr (.inr h)
  | off _ _ ih =>
    refine (ih hi).mono fun m hm => ?_
    simp only [List.flatMap_cons, List.mem_append] at hm ⊢
    rcases hm with h | h
    · exact .inl h
    · exact .inr (.inr h)

/-! ### What stays -/

/-- The documents of `w` are still those of `w'`, but for their status. -/
structure Stays (w w' : World) : Prop where
  docs : ∀ (d : Nat) (x : Document), w.docs[d]? = some x → ∃ y, w'.docs[d]? = some y ∧ y.alloc = x.alloc ∧ y.root = x.root

theorem Stays.refl (w : World) : Stays w w := ⟨fun _ x hx => ⟨x, hx, rfl, rfl⟩⟩

theorem Stays.trans {a b c : World} (h : Stays a b) (h' : Stays b c) : Stays a c := by
  refine ⟨fun d x hx => ?_⟩
  obtain ⟨y, hy, h1, h2⟩ := h.docs d x hx
  obtain ⟨z, hz, h3, h4⟩ := h'.docs d y hy
  exact ⟨z, hz, h3.trans h1, h4.trans h2⟩

theorem stays_append {w : World} {l : List Document} : ∀ (d : Nat) (x : Document), w.docs[d]? = some x →
    ∃ y, (w.docs ++ l)[d]? = some y ∧ y.alloc = x.alloc ∧ y.root = x.root := by
  intro d x hx
  exact ⟨x, by rw [List.getElem?_append_left (List.getElem?_eq_some_iff.1 hx).1]; exact hx, rfl, rfl⟩

theorem stays_set {w : World} {e : Nat} {z : Document} {s : Status} (hz : w.docs[e]? = some z) :
    Stays w (w.setDoc e { z with status := s }) := by
  refine ⟨fun d x hx => ?_⟩
  have hd : d < w.docs.length := (List.getElem?_eq_some_iff.1 hx).1
  simp only [World.setDoc, List.getElem?_set]
  split
  · next he =>
    subst he
    cases hx.symm.trans hz
    exact ⟨{ z with status := s }, by rw [if_pos hd], rfl, rfl⟩
  · exact ⟨x, hx, rfl, rfl⟩

theorem step_stays {w w' : World} {op : Op} (h : step w op = .ok w') : Stays w w' := by
  cases op with
  | parse t => simp only [step, Out.ok.injEq] at h; subst h; exact ⟨stays_append⟩
  | ser o sn =>
    simp only [step] at h
    split at h
    · cases h
    · split at h
      · split at h
        · cases h
        · cases h; exact ⟨stays_append⟩
      · cases h
  | build ms sn =>
    simp only [step] at h
    split at h
    · split at h
      · cases h
      · cases h; exact ⟨stays_append⟩
    · cases h
  | deser d t =>
    simp only [step] at h
    split at h
    · cases h
    · split at h
      · split at h
        · split at h
          · cases h
          · cases h; exact ⟨fun _ x hx => ⟨x, hx, rfl, rfl⟩⟩
        · cases h
      · cases h
  | object v =>
    simp only [step] at h
    split at h
    · cases h; exact ⟨fun _ x hx => ⟨x, hx, rfl, rfl⟩⟩
    · cases h
  | buf s => simp only [step, Out.ok.injEq] at h; subst h; exact ⟨fun _ x hx => ⟨x, hx, rfl, rfl⟩⟩
  | free s => simp only [step, Out.ok.injEq] at h; subst h; exact ⟨fun _ x hx => ⟨x, hx, rfl, rfl⟩⟩
  | move d =>
    simp only [step] at h
    split at h
    · cases h
    · next x hx =>
      split at h
      · cases h
        exact (stays_set (s := .moved) hx).trans ⟨stays_append⟩
      · cases h
  | drop d =>
    simp only [step] at h
    split at h
    · cases h
    · next x hx =>
      split at h
      · cases h
      · cases h; exact stays_set hx
  | read d =>
    simp only [step] at h
    split at h
    · cases h
    · split at h
      · split at h
        · cases h; exact .refl _
        · cases h
      · cases h

theorem runs_stays {w w' : World} {ops : List Op} (h : Runs w ops w') : Stays w w' := by
  induction h with
  | nil => exact .refl _
  | ok hs _ ih => exact (step_stays hs).trans ih
  | threw _ _ ih => exact ih
  | off _ _ ih => exact ih

end Verif.Lifetime
