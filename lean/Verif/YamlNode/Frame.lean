import Verif.YamlNode.Spec
/-
What reading a document leaves alone.
-/
namespace Verif.YamlNode

/-! ### Reading depends on the nodes of the document only -/

mutual
theorem reads_of {H H' : Heap} {S : Nat → Prop} (hc : ∀ n, S n → H'.content n = H.content n)
    (hk : ∀ n, S n → ∀ m ∈ (H.content n).kids, S m) (n : Nat) (hn : S n) (t : Tree) :
    Reads H n t → Reads H' n t := by
  match t with
  | .null => simp only [Reads, hc n hn]; exact id
  | .scalar s => simp only [Reads, hc n hn]; exact id
  | .seq ts =>
    simp only [Reads, hc n hn]
    rintro ⟨ns, h, hr⟩
    refine ⟨ns, h, readsSeq_of hc hk ns ?_ ts hr⟩
    have := hk n hn
    rw [h] at this
    exact this
  | .map es =>
    simp only [Reads, hc n hn]
    rintro ⟨ms, h, hr⟩
    refine ⟨ms, h, readsMap_of hc hk ms ?_ es hr⟩
    have := hk n hn
    rw [h] at this
    intro e he
    exact this _ (List.mem_map.mpr ⟨e, he, rfl⟩)
theorem readsSeq_of {H H' : Heap} {S : Nat → Prop} (hc : ∀ n, S n → H'.content n = H.content n)
    (hk : ∀ n, S n → ∀ m ∈ (H.content n).kids, S m) (ns : List Nat) (hn : ∀ n ∈ ns, S n) (ts : Trees) :
    ReadsSeq H ns ts → ReadsSeq H' ns ts := by
  match ns, ts with
  | [], .nil => exact id
  | n :: ns, .cons t ts =>
    simp only [ReadsSeq]
    rintro ⟨h1, h2⟩
    exact ⟨reads_of hc hk n (hn n (by simp)) t h1,
      readsSeq_of hc hk ns (fun m hm => hn m (by simp [hm])) ts h2⟩
  | [], .cons _ _ => simp [ReadsSeq]
  | _ :: _, .nil => simp [ReadsSeq]
theorem readsMap_of {H H' : Heap} {S : Nat → Prop} (hc : ∀ n, S n → H'.content n = H.content n)
    (hk : ∀ n, S n → ∀ m ∈ (H.content n).kids, S m) (ns : List (String × Nat)) (hn : ∀ e ∈ ns, S e.2)
    (ts : Entries) : ReadsMap H ns ts → ReadsMap H' ns ts := by
  match ns, ts with
  | [], .nil => exact id
  | (k, n) :: ns, .cons k' t ts =>
    simp only [ReadsMap]
    rintro ⟨h0, h1, h2⟩
    exact ⟨h0, reads_of hc hk n (hn (k, n) (by simp)) t h1,
      readsMap_of hc hk ns (fun m hm => hn m (by simp [hm])) ts h2⟩
  | [], .cons _ _ _ => simp [ReadsMap]
  | _ :: _, .nil => simp [ReadsMap]
end

theorem reads_iff {H H' : Heap} {S : Nat → Prop} (hc : ∀ n, S n → H'.content n = H.content n)
    (hk : ∀ n, S n → ∀ m ∈ (H.content n).kids, S m) {n : Nat} (hn : S n) {t : Tree} :
    Reads H' n t ↔ Reads H n t :=
  ⟨reads_of (fun n h => (hc n h).symm) (fun n h => by rw [hc n h]; exact hk n h) n hn t,
    reads_of hc hk n hn t⟩

/-! ### Redirecting nodes -/

/-- From `H` to `H'` nodes and cells were added and only nodes of `B` were made to refer to other
cells. -/
structure Redirects (B : List Nat) (H H' : Heap) : Prop where
  nodes : H.nodes ≤ H'.nodes
  cells : H.cells ≤ H'.cells
  data : ∀ k, k < H.cells → H'.data k = H.data k
  ref : ∀ n, n < H.nodes → n ∉ B → H'.ref n = H.ref n
  ok : Ok H'

theorem Redirects.refl {B : List Nat} {H : Heap} (ho : Ok H) : Redirects B H H :=
  ⟨Nat.le_refl _, Nat.le_refl _, fun _ _ => rfl, fun _ _ _ => rfl, ho⟩

theorem Redirects.trans {B : List Nat} {H1 H2 H3 : Heap} (h1 : Redirects B H1 H2)
    (h2 : Redirects B H2 H3) : Redirects B H1 H3 :=
  ⟨Nat.le_trans h1.nodes h2.nodes, Nat.le_trans h1.cells h2.cells,
    fun k hk => by rw [h2.data k (Nat.lt_of_lt_of_le hk h1.cells), h1.data k hk],
    fun n hn hb => by rw [h2.ref n (Nat.lt_of_lt_of_le hn h1.nodes) hb, h1.ref n hn hb], h2.ok⟩

theorem Redirects.mono {B B' : List Nat} {H H' : Heap} (hs : ∀ n ∈ B, n ∈ B') (h : Redirects B H H') :
    Redirects B' H H' :=
  ⟨h.nodes, h.cells, h.data, fun n hn hb => h.ref n hn fun hc => hb (hs n hc), h.ok⟩

theorem alloc_redirects {B : List Nat} {H : Heap} (ho : Ok H) {c : Content} (hc : ∀ m ∈ c.kids, m < H.nodes) :
    Redirects B H (H.alloc c).1 := by
  refine ⟨Nat.le_succ _, Nat.le_succ _, ?_, ?_, ?_, ?_⟩
  · intro k hk; simp only [Heap.alloc]; rw [if_neg (by omega)]
  · intro n hn _; simp only [Heap.alloc]; rw [if_neg (by omega)]
  · intro n hn
    simp only [Heap.alloc] at hn ⊢
    split
    · omega
    · have := ho.ref n (by omega); omega
  · intro k hk m hm
    simp only [Heap.alloc] at hk hm ⊢
    split at hm
    · have := hc m hm; omega
    · have := ho.kids k (by omega) m hm; omega

theorem ensure_redirects {B : List Nat} {H : Heap} (ho : Ok H) (h : Handle) :
    Redirects B H (H.ensure h).1 := by
  cases h with
  | none => exact alloc_redirects ho (by simp [Content.kids])
  | some n => exact .refl ho

theorem ensure_lt {H : Heap} {h : Handle} (hh : okHandle H h) : (H.ensure h).2 < (H.ensure h).1.nodes := by
  cases h with
  | none => simp [Heap.ensure, Heap.alloc]
  | some n => exact hh n rfl

theorem setRef_redirects {B : List Nat} {H : Heap} (ho : Ok H) {n c : Nat} (hn : n ∈ B) (hc : c < H.cells) :
    Redirects B H (H.setRef n c) := by
  refine ⟨Nat.le_refl _, Nat.le_refl _, fun _ _ => rfl, ?_, ?_, ho.kids⟩
  · intro m _ hb
    simp only [Heap.setRef]
    rw [if_neg (by rintro rfl; exact hb hn)]
  · intro m hm
    simp only [Heap.setRef] at hm ⊢
    split
    · exact hc
    · exact ho.ref m hm

theorem okHandle_mono {H H' : Heap} (h : H.nodes ≤ H'.nodes) {r : Handle} (hr : okHandle H r) : okHandle H' r :=
  fun n hn => Nat.lt_of_lt_of_le (hr n hn) h

theorem assign_redirects {B : List Nat} {H : Heap} (ho : Ok H) {h r : Handle}
    (hb : ∀ n, h = some n → n ∈ B) (hh : okHandle H h) (hr : okHandle H r) :
    Redirects B H (assign H h r).1 ∧ okHandle (assign H h r).1 (assign H h r).2 := by
  cases h with
  | none =>
    refine ⟨ensure_redirects ho r, ?_⟩
    intro n hn
    simp only [assign, Option.some.injEq] at hn ⊢
    subst hn
    exact ensure_lt hr
  | some n =>
    cases r with
    | some m =>
      simp only [assign]
      split
      · exact ⟨.refl ho, hh⟩
      · exact ⟨setRef_redirects ho (hb n rfl) (ho.ref m (hr m rfl)), hr⟩
    | none =>
      simp only [assign, Heap.ensure]
      have h1 := alloc_redirects (B := B) ho (c := .null) (by simp [Content.kids])
      refine ⟨h1.trans (setRef_redirects h1.ok (hb n rfl) ?_), ?_⟩
      · exact h1.ok.ref _ (by simp [Heap.alloc])
      · intro k hk
        cases hk
        simp [Heap.setRef, Heap.alloc]

/-! ### Views in objects -/

/-- All nodes views of the objects refer to exist. -/
def okBound (H : Heap) (l : List Nat) : Prop := ∀ n ∈ l, n < H.nodes

theorem okBound_mono {H H' : Heap} (h : H.nodes ≤ H'.nodes) {l : List Nat} (hl : okBound H l) : okBound H' l :=
  fun n hn => Nat.lt_of_lt_of_le (hl n hn) h

mutual
theorem fresh_bound (t : Ty) : t.fresh.bound = [] := by
  match t with
  | .scalar _ => rfl
  | .view => rfl
  | .opt _ => rfl
  | .vec _ => rfl
  | .map _ => rfl
  | .tup fs => simp only [Ty.fresh, Val.bound]; exact freshs_bound fs
  | .obj fs => simp only [Ty.fresh, Val.bound]; exact freshs_bound fs
theorem freshs_bound (fs : Flds) : Val.bounds fs.fresh = [] := by
  match fs with
  | .nil => rfl
  | .cons _ t rest => simp only [Flds.fresh, Val.bounds, fresh_bound t, freshs_bound rest, List.append_nil]
end

theorem view_bound (h : Handle) : (Val.view h).bound = h.toList := by cases h <;> rfl

theorem okBound_append {H : Heap} {a b : List Nat} : okBound H (a ++ b) ↔ okBound H a ∧ okBound H b := by
  simp only [okBound, List.mem_append]
  exact ⟨fun h => ⟨fun n hn => h n (.inl hn), fun n hn => h n (.inr hn)⟩,
    fun h n hn => hn.elim (h.1 n) (h.2 n)⟩

theorem bounds_append (as bs : List Val) : Val.bounds (as ++ bs) = Val.bounds as ++ Val.bounds bs := by
  induction as with
  | nil => rfl
  | cons a as ih => simp only [List.cons_append, Val.bounds, ih, List.append_assoc]

theorem boundEs_append (as bs : List (String × Val)) :
    Val.boundEs (as ++ bs) = Val.boundEs as ++ Val.boundEs bs := by
  induction as with
  | nil => rfl
  | cons a as ih => obtain ⟨k, v⟩ := a; simp only [List.cons_append, Val.boundEs, ih, List.append_assoc]

theorem parts_bound (v : Val) : ∀ n ∈ Val.bounds v.parts, n ∈ v.bound := by
  cases v <;> simp [Val.parts, Val.bounds, Val.bound]

/-- What is known of a call: nodes of `B` may be redirected, and the views of the result refer to
existing nodes. -/
def Good (B : List Nat) (H H' : Heap) (l : List Nat) : Prop := Redirects B H H' ∧ okBound H' l

theorem Good.after {B : List Nat} {H1 H2 H3 : Heap} {l : List Nat} (h1 : Redirects B H1 H2)
    (h2 : Good B H2 H3 l) : Good B H1 H3 l := ⟨h1.trans h2.1, h2.2⟩

mutual
theorem moveAssign_good {B : List Nat} (t : Ty) (a b : Val) (H : Heap) (ho : Ok H)
    (hB : ∀ n ∈ a.bound, n ∈ B) (ha : okBound H a.bound) (hb : okBound H b.bound) :
    Good B H (moveAssign t a b H).2 (moveAssign t a b H).1.bound := by
  have hdef : Good B H H b.bound := ⟨.refl ho, hb⟩
  match t with
  | .scalar _ => simpa only [moveAssign] using hdef
  | .vec _ => simpa only [moveAssign] using hdef
  | .map _ => simpa only [moveAssign] using hdef
  | .view =>
    cases a with
    | view x =>
      cases b with
      | view y =>
        simp only [moveAssign]
        obtain ⟨h1, h2⟩ := assign_redirects (B := B) ho (h := x) (r := y)
          (fun n hn => hB n (by subst hn; simp [Val.bound]))
          (fun n hn => ha n (by subst hn; simp [Val.bound]))
          (fun n hn => hb n (by subst hn; simp [Val.bound]))
        refine ⟨h1, ?_⟩
        rw [view_bound]
        intro n hn
        simp only [Option.mem_toList] at hn
        exact h2 n hn
      | _ => simpa only [moveAssign] using hdef
    | _ => simpa only [moveAssign] using hdef
  | .opt t =>
    cases a with
    | opt x =>
      cases b with
      | opt y =>
        cases x with
        | none => simpa only [moveAssign] using hdef
        | some x =>
          cases y with
          | none => simpa only [moveAssign] using hdef
          | some y =>
            simp only [moveAssign, Val.bound] at hB ha hb ⊢
            exact moveAssign_good t x y H ho hB ha hb
      | _ => simpa only [moveAssign] using hdef
    | _ => simpa only [moveAssign] using hdef
  | .tup fs =>
    cases a with
    | record as =>
      cases b with
      | record bs =>
        simp only [moveAssign, Val.bound] at hB ha hb ⊢
        exact moveAssigns_good fs as bs H ho hB ha hb
      | _ => simpa only [moveAssign] using hdef
    | _ => simpa only [moveAssign] using hdef
  | .obj fs =>
    cases a with
    | record as =>
      cases b with
      | record bs =>
        simp only [moveAssign, Val.bound] at hB ha hb ⊢
        exact moveAssigns_good fs as bs H ho hB ha hb
      | _ => simpa only [moveAssign] using hdef
    | _ => simpa only [moveAssign] using hdef
theorem moveAssigns_good {B : List Nat} (fs : Flds) (as bs : List Val) (H : Heap) (ho : Ok H)
    (hB : ∀ n ∈ Val.bounds as, n ∈ B) (ha : okBound H (Val.bounds as)) (hb : okBound H (Val.bounds bs)) :
    Good B H (moveAssigns fs as bs H).2 (Val.bounds (moveAssigns fs as bs H).1) := by
  have hdef : Good B H H (Val.bounds bs) := ⟨.refl ho, hb⟩
  match fs, as, bs with
  | .nil, _, _ => simpa only [moveAssigns] using hdef
  | .cons _ _ _, [], _ => simpa only [moveAssigns] using hdef
  | .cons _ _ _, _ :: _, [] => simpa only [moveAssigns] using hdef
  | .cons _ t fs, a :: as, b :: bs =>
    simp only [Val.bounds] at hB ha hb
    rw [okBound_append] at ha hb
    have h1 := moveAssign_good (B := B) t a b H ho (fun n hn => hB n (by simp [hn])) ha.1 hb.1
    have h2 := moveAssigns_good (B := B) fs as bs (moveAssign t a b H).2 h1.1.ok
      (fun n hn => hB n (by simp [hn])) (okBound_mono h1.1.nodes ha.2) (okBound_mono h1.1.nodes hb.2)
    simp only [moveAssigns, Val.bounds]
    exact ⟨h1.1.trans h2.1, okBound_append.mpr ⟨okBound_mono h2.1.nodes h1.2, h2.2⟩⟩
end

/-! ### Reading -/

theorem Ok.content {H : Heap} (ho : Ok H) {n : Nat} (hn : n < H.nodes) : ∀ m ∈ (H.content n).kids, m < H.nodes :=
  ho.kids _ (ho.ref n hn)

theorem Ok.get {H : Heap} (ho : Ok H) {h : Handle} (hh : okHandle H h) : ∀ m ∈ (H.get h).kids, m < H.nodes := by
  cases h with
  | none => simp [Heap.get, Content.kids]
  | some n => exact ho.content (hh n rfl)

theorem readEach_good {B : List Nat} {f : Handle → Heap → Res Val}
    (hf : ∀ h H, Ok H → okBound H B → okHandle H h → Good B H (f h H).heap (f h H).out.bound) :
    ∀ (ns : List Nat) (acc : List Val) (H : Heap), Ok H → okBound H B → okBound H ns →
      okBound H (Val.bounds acc) → Good B H (readEach f ns acc H).heap (Val.bounds (readEach f ns acc H).out) := by
  intro ns
  induction ns with
  | nil => intro acc H ho _ _ ha; exact ⟨.refl ho, ha⟩
  | cons n ns ih =>
    intro acc H ho hB hn ha
    have h1 := hf (some n) H ho hB (fun k hk => by cases hk; exact hn n (by simp))
    unfold readEach
    split
    · refine Good.after h1.1 (ih _ _ h1.1.ok (okBound_mono h1.1.nodes hB)
        (fun k hk => Nat.lt_of_lt_of_le (hn k (by simp [hk])) h1.1.nodes) ?_)
      rw [bounds_append, okBound_append]
      refine ⟨okBound_mono h1.1.nodes ha, ?_⟩
      simp only [Val.bounds, List.append_nil]
      exact h1.2
    · exact ⟨h1.1, okBound_mono h1.1.nodes ha⟩

theorem emplace_bound {H : Heap} {acc : List (String × Val)} {k : String} {v : Val}
    (ha : okBound H (Val.boundEs acc)) (hv : okBound H v.bound) : okBound H (Val.boundEs (emplace acc k v)) := by
  unfold emplace
  split
  · exact ha
  · rw [boundEs_append, okBound_append]
    simp only [Val.boundEs, List.append_nil]
    exact ⟨ha, hv⟩

theorem readEntries_good {B : List Nat} {f : Handle → Heap → Res Val}
    (hf : ∀ h H, Ok H → okBound H B → okHandle H h → Good B H (f h H).heap (f h H).out.bound) :
    ∀ (es : List (String × Nat)) (acc : List (String × Val)) (H : Heap), Ok H → okBound H B →
      okBound H (es.map (·.2)) → okBound H (Val.boundEs acc) →
      Good B H (readEntries f es acc H).heap (Val.boundEs (readEntries f es acc H).out) := by
  intro es
  induction es with
  | nil => intro acc H ho _ _ ha; exact ⟨.refl ho, ha⟩
  | cons e es ih =>
    obtain ⟨k, n⟩ := e
    intro acc H ho hB hn ha
    have h1 := hf (some n) H ho hB (fun k hk => by cases hk; exact hn n (by simp))
    unfold readEntries
    split
    · refine Good.after h1.1 (ih _ _ h1.1.ok (okBound_mono h1.1.nodes hB)
        (fun k hk => Nat.lt_of_lt_of_le (hn k (by simp only [List.map_cons, List.mem_cons]; exact .inr hk)) h1.1.nodes) ?_)
      exact emplace_bound (okBound_mono h1.1.nodes ha) h1.2
    · exact ⟨h1.1, okBound_mono h1.1.nodes ha⟩

theorem atIndex_ok {H : Heap} (ho : Ok H) {h : Handle} (hh : okHandle H h) (i : Nat) :
    okHandle H (atIndex H h i) := by
  intro n hn
  have hk := ho.get hh
  unfold atIndex at hn
  split at hn
  · rename_i ns he
    rw [he] at hk
    exact hk n (List.mem_of_getElem? hn)
  · cases hn

theorem lookup_mem {es : List (String × Nat)} {k : String} {n : Nat} (h : es.lookup k = some n) :
    n ∈ es.map (·.2) := by
  induction es with
  | nil => cases h
  | cons e es ih =>
    obtain ⟨k', m⟩ := e
    rw [List.lookup_cons] at h
    split at h
    · cases h; simp
    · simp only [List.map_cons, List.mem_cons]; exact .inr (ih h)

theorem lookup_ok {H : Heap} (ho : Ok H) {h : Handle} (hh : okHandle H h) {k : String} {n : Nat}
    (hl : lookup H h k = .node n) : n < H.nodes := by
  have hk := ho.get hh
  unfold lookup at hl
  split at hl
  · rename_i es he
    rw [he] at hk
    split at hl
    · cases hl
      rename_i hes
      exact hk _ (lookup_mem hes)
    · cases hl
  · cases hl
  · cases hl

theorem okHandle_none (H : Heap) : okHandle H none := by intro n hn; cases hn

theorem okHandle_some {H : Heap} {n : Nat} (h : n < H.nodes) : okHandle H (some n) := by
  intro m hm; cases hm; exact h

mutual
theorem read_good {B : List Nat} (t : Ty) (v : Val) (h : Handle) (H : Heap) (ho : Ok H)
    (hB : okBound H B) (hv : ∀ n ∈ v.bound, n ∈ B) (hh : okHandle H h) :
    Good B H (read t v h H).heap (read t v h H).out.bound := by
  have hvo : okBound H v.bound := fun n hn => hB n (hv n hn)
  have hdef : Good B H H v.bound := ⟨.refl ho, hvo⟩
  match t with
  | .scalar p =>
    simp only [read, readScalar]
    split
    · split
      · exact ⟨.refl ho, by simp [Val.bound, okBound]⟩
      · exact hdef
    · exact hdef
  | .view =>
    simp only [read]
    cases v with
    | view old =>
      simp only [readView]
      obtain ⟨h1, h2⟩ := assign_redirects (B := B) ho (h := old) (r := h)
        (fun n hn => hv n (by subst hn; simp [Val.bound]))
        (fun n hn => hvo n (by subst hn; simp [Val.bound])) hh
      refine ⟨h1, ?_⟩
      rw [view_bound]
      intro n hn
      simp only [Option.mem_toList] at hn
      exact h2 n hn
    | _ => exact hdef
  | .opt t =>
    simp only [read]
    have h1 := read_good (B := B) t t.fresh h H ho hB (by rw [fresh_bound]; simp) hh
    split
    · exact ⟨.refl ho, by simp [Val.bound, okBound]⟩
    · split
      · simp only [storeOpt]
        have hd : Good B H (read t t.fresh h H).heap (Val.opt (some (read t t.fresh h H).out)).bound := by
          simp only [Val.bound]; exact h1
        cases v with
        | opt w =>
          cases w with
          | none => exact hd
          | some o =>
            simp only [Val.bound] at hv hvo ⊢
            exact Good.after h1.1
              (moveAssign_good t o _ _ h1.1.ok hv (okBound_mono h1.1.nodes hvo) h1.2)
        | _ => exact hd
      · exact ⟨h1.1, okBound_mono h1.1.nodes hvo⟩
  | .vec t =>
    simp only [read]
    have hk := ho.get hh
    split
    · rename_i ns he
      rw [he] at hk
      simp only [Res.map, Val.bound]
      exact readEach_good (fun h H ho hB hh => read_good t t.fresh h H ho hB (by rw [fresh_bound]; simp) hh)
        ns [] H ho hB hk (by simp [Val.bounds, okBound])
    · exact hdef
  | .map t =>
    simp only [read]
    have hk := ho.get hh
    split
    · rename_i es he
      rw [he] at hk
      simp only [Res.map, Val.bound]
      exact readEntries_good (fun h H ho hB hh => read_good t t.fresh h H ho hB (by rw [fresh_bound]; simp) hh)
        es [] H ho hB hk (by simp [Val.boundEs, okBound])
    · exact hdef
  | .tup fs =>
    simp only [read]
    split
    · split
      · exact hdef
      · simp only [Res.map, Val.bound]
        exact readIndexed_good fs v.parts h 0 H ho hB (fun n hn => hv n (parts_bound v n hn)) hh
    · exact hdef
  | .obj fs =>
    simp only [read]
    split
    · simp only [Res.map, Val.bound]
      exact readFields_good fs v.parts h H ho hB (fun n hn => hv n (parts_bound v n hn)) hh
    · split
      · exact hdef
      · simp only [Res.map, Val.bound]
        exact readIndexed_good fs v.parts h 0 H ho hB (fun n hn => hv n (parts_bound v n hn)) hh
    · exact hdef
theorem readIndexed_good {B : List Nat} (fs : Flds) (vs : List Val) (h : Handle) (i : Nat) (H : Heap) (ho : Ok H)
    (hB : okBound H B) (hv : ∀ n ∈ Val.bounds vs, n ∈ B) (hh : okHandle H h) :
    Good B H (readIndexed fs vs h i H).heap (Val.bounds (readIndexed fs vs h i H).out) := by
  have hvo : okBound H (Val.bounds vs) := fun n hn => hB n (hv n hn)
  have hdef : Good B H H (Val.bounds vs) := ⟨.refl ho, hvo⟩
  match fs, vs with
  | .nil, _ => simpa only [readIndexed] using hdef
  | .cons _ _ _, [] => simpa only [readIndexed] using hdef
  | .cons _ t fs, v :: vs =>
    simp only [Val.bounds] at hv hvo
    rw [okBound_append] at hvo
    have h1 := read_good (B := B) t v (atIndex H h i) H ho hB (fun n hn => hv n (by simp [hn])) (atIndex_ok ho hh i)
    simp only [readIndexed]
    split
    · have h2 := readIndexed_good (B := B) fs vs h (i + 1) _ h1.1.ok (okBound_mono h1.1.nodes hB)
        (fun n hn => hv n (by simp [hn])) (okHandle_mono h1.1.nodes hh)
      simp only [Res.map, Val.bounds]
      exact ⟨h1.1.trans h2.1, okBound_append.mpr ⟨okBound_mono h2.1.nodes h1.2, h2.2⟩⟩
    · simp only [Val.bounds]
      exact ⟨h1.1, okBound_append.mpr ⟨h1.2, okBound_mono h1.1.nodes hvo.2⟩⟩
theorem readFields_good {B : List Nat} (fs : Flds) (vs : List Val) (h : Handle) (H : Heap) (ho : Ok H)
    (hB : okBound H B) (hv : ∀ n ∈ Val.bounds vs, n ∈ B) (hh : okHandle H h) :
    Good B H (readFields fs vs h H).heap (Val.bounds (readFields fs vs h H).out) := by
  have hvo : okBound H (Val.bounds vs) := fun n hn => hB n (hv n hn)
  have hdef : Good B H H (Val.bounds vs) := ⟨.refl ho, hvo⟩
  match fs, vs with
  | .nil, _ => simpa only [readFields] using hdef
  | .cons _ _ _, [] => simpa only [readFields] using hdef
  | .cons name t fs, v :: vs =>
    have hv1 : ∀ n ∈ v.bound, n ∈ B := fun n hn => hv n (by simp [Val.bounds, hn])
    have hv2 : ∀ n ∈ Val.bounds vs, n ∈ B := fun n hn => hv n (by simp [Val.bounds, hn])
    have hstep : ∀ k, okHandle H k →
        Good B H ((readFields fs vs h (read t v k H).heap).heap)
          (Val.bounds ((read t v k H).out :: (readFields fs vs h (read t v k H).heap).out)) ∧
        Good B H (read t v k H).heap (Val.bounds ((read t v k H).out :: vs)) := by
      intro k hk
      have h1 := read_good (B := B) t v k H ho hB hv1 hk
      have h2 := readFields_good (B := B) fs vs h _ h1.1.ok (okBound_mono h1.1.nodes hB) hv2
        (okHandle_mono h1.1.nodes hh)
      simp only [Val.bounds] at hvo ⊢
      rw [okBound_append] at hvo
      exact ⟨⟨h1.1.trans h2.1, okBound_append.mpr ⟨okBound_mono h2.1.nodes h1.2, h2.2⟩⟩,
        ⟨h1.1, okBound_append.mpr ⟨h1.2, okBound_mono h1.1.nodes hvo.2⟩⟩⟩
    simp only [readFields]
    split
    · exact hdef
    · have := hstep none (okHandle_none H)
      split
      · exact this.1
      · exact this.2
    · rename_i n hl
      have := hstep (some n) (okHandle_some (lookup_ok ho hh hl))
      split
      · exact this.1
      · exact this.2
end

mutual
theorem patch_good {B : List Nat} (t : Ty) (v : Val) (h : Handle) (H : Heap) (ho : Ok H)
    (hB : okBound H B) (hv : ∀ n ∈ v.bound, n ∈ B) (hh : okHandle H h) :
    Good B H (patch t v h H).heap (patch t v h H).out.bound := by
  have hvo : okBound H v.bound := fun n hn => hB n (hv n hn)
  have hdef : Good B H H v.bound := ⟨.refl ho, hvo⟩
  match t with
  | .scalar p => simp only [patch]; exact read_good _ v h H ho hB hv hh
  | .view => simp only [patch]; exact read_good _ v h H ho hB hv hh
  | .vec t => simp only [patch]; exact read_good _ v h H ho hB hv hh
  | .map t => simp only [patch]; exact read_good _ v h H ho hB hv hh
  | .tup fs => simp only [patch]; exact read_good _ v h H ho hB hv hh
  | .opt t =>
    simp only [patch]
    have hnew : Good B H (match (patch t t.fresh h H).stop with
        | .ok => (⟨.ok, .opt (some (patch t t.fresh h H).out), (patch t t.fresh h H).heap⟩ : Res Val)
        | e => ⟨e, v, (patch t t.fresh h H).heap⟩).heap (match (patch t t.fresh h H).stop with
        | .ok => (⟨.ok, .opt (some (patch t t.fresh h H).out), (patch t t.fresh h H).heap⟩ : Res Val)
        | e => ⟨e, v, (patch t t.fresh h H).heap⟩).out.bound := by
      have h1 := patch_good (B := B) t t.fresh h H ho hB (by rw [fresh_bound]; simp) hh
      split
      · simp only [Val.bound]; exact h1
      · exact ⟨h1.1, okBound_mono h1.1.nodes hvo⟩
    split
    · exact ⟨.refl ho, by simp [Val.bound, okBound]⟩
    · cases v with
      | opt w =>
        cases w with
        | none => exact hnew
        | some o =>
          simp only [Res.map, Function.comp, Val.bound] at hv ⊢
          exact patch_good t o h H ho hB hv hh
      | _ => exact hnew
  | .obj fs =>
    simp only [patch]
    split
    · simp only [Res.map, Val.bound]
      exact patchFields_good fs v.parts h H ho hB (fun n hn => hv n (parts_bound v n hn)) hh
    · exact read_good _ v h H ho hB hv hh
theorem patchFields_good {B : List Nat} (fs : Flds) (vs : List Val) (h : Handle) (H : Heap) (ho : Ok H)
    (hB : okBound H B) (hv : ∀ n ∈ Val.bounds vs, n ∈ B) (hh : okHandle H h) :
    Good B H (patchFields fs vs h H).heap (Val.bounds (patchFields fs vs h H).out) := by
  have hvo : okBound H (Val.bounds vs) := fun n hn => hB n (hv n hn)
  have hdef : Good B H H (Val.bounds vs) := ⟨.refl ho, hvo⟩
  match fs, vs with
  | .nil, _ => simpa only [patchFields] using hdef
  | .cons _ _ _, [] => simpa only [patchFields] using hdef
  | .cons name t fs, v :: vs =>
    have hv1 : ∀ n ∈ v.bound, n ∈ B := fun n hn => hv n (by simp [Val.bounds, hn])
    have hv2 : ∀ n ∈ Val.bounds vs, n ∈ B := fun n hn => hv n (by simp [Val.bounds, hn])
    simp only [patchFields]
    simp only [Val.bounds] at hvo
    rw [okBound_append] at hvo
    split
    · exact hdef
    · have h2 := patchFields_good (B := B) fs vs h H ho hB hv2 hh
      simp only [Res.map, Val.bounds]
      exact ⟨h2.1, okBound_append.mpr ⟨okBound_mono h2.1.nodes hvo.1, h2.2⟩⟩
    · rename_i n hl
      have h1 := patch_good (B := B) t v (some n) H ho hB hv1 (okHandle_some (lookup_ok ho hh hl))
      split
      · have h2 := patchFields_good (B := B) fs vs h _ h1.1.ok (okBound_mono h1.1.nodes hB) hv2
          (okHandle_mono h1.1.nodes hh)
        simp only [Res.map, Val.bounds]
        exact ⟨h1.1.trans h2.1, okBound_append.mpr ⟨okBound_mono h2.1.nodes h1.2, h2.2⟩⟩
      · simp only [Val.bounds]
        exact ⟨h1.1, okBound_append.mpr ⟨h1.2, okBound_mono h1.1.nodes hvo.2⟩⟩
end

end Verif.YamlNode
