import Verif.YamlNode.Edits
/-
Documents and the objects read from and written to them share nodes: C110 (reading), C111 (writing).
-/
namespace Verif.YamlNode

/-! ### Small documents -/

/-- Nodes with these contents, each with its own cell. -/
def heapOf (l : List Content) : Heap := ⟨l.length, l.length, id, fun k => l.getD k .null⟩

/-- Two documents: `{a: 1}` at node 0 and `{a: 2}` at node 2. -/
def two : Heap := heapOf [.map [("a", 1)], .scalar "1", .map [("a", 3)], .scalar "2"]

theorem two_ok : Ok two := ⟨by decide, by decide⟩

/-- `{a: s}`. -/
def aIs (s : String) : Tree := .map (.cons "a" (.scalar s) .nil)

/-- `struct { yaml::view a; }`. -/
def tView : Ty := .obj (.cons "a" .view .nil)

/-- `struct { std::string a; }`. -/
def tText : Ty := .obj (.cons "a" (.scalar fun _ => true) .nil)

theorem two_reads : Reads two 0 (aIs "1") ∧ Reads two 2 (aIs "2") :=
  ⟨⟨_, rfl, rfl, rfl, trivial⟩, ⟨_, rfl, rfl, rfl, trivial⟩⟩

theorem within_closed {H : Heap} {S : List Nat} (hc : ∀ n ∈ S, ∀ m ∈ (H.content n).kids, m ∈ S) {n m : Nat}
    (hw : Within H n m) (hn : n ∈ S) : m ∈ S := by
  induction hw with
  | self => exact hn
  | kid hk _ ih => exact ih (hc _ hn _ hk)

theorem Within.more {H : Heap} {n b m : Nat} (hw : Within H n b) (hm : m ∈ (H.content b).kids) : Within H n m := by
  induction hw with
  | self => exact .kid hm (.self _)
  | kid hk _ ih => exact .kid hk (ih hm)

/-! ### C110: reading -/

/-- Whatever is read from where and however the call ends: a document none of whose nodes the views of the
object referred to before reads as before. -/
theorem C110_keeps (t : Ty) (v : Val) (h : Handle) (H : Heap) (ho : Ok H) (hh : okHandle H h)
    (hv : ∀ b ∈ v.bound, b < H.nodes) (n : Nat) (hn : n < H.nodes) (hd : ∀ b ∈ v.bound, ¬ Within H n b) (tr : Tree) :
    (Reads (read t v h H).heap n tr ↔ Reads H n tr) ∧ (Reads (patch t v h H).heap n tr ↔ Reads H n tr) := by
  have h1 := read_good (B := v.bound) t v h H ho hv (fun n hn => hn) hh
  have h2 := patch_good (B := v.bound) t v h H ho hv (fun n hn => hn) hh
  have hs : Safe v.bound H n := ⟨hn, hd⟩
  exact ⟨hs.reads (fun n hn => hn) ho h1.1, hs.reads (fun n hn => hn) ho h2.1⟩

-- an object whose view refers to node 3 takes the value from another document; `{a: 1}` stays
example : ∀ tr, (Reads (read tView (.record [.view (some 3)]) (some 0) two).heap 0 tr ↔ Reads two 0 tr) :=
  fun tr => (C110_keeps tView (.record [.view (some 3)]) (some 0) two two_ok (by intro n hn; cases hn; decide)
    (by decide) 0 (by decide)
    (by intro b hb hw
        have := within_closed (S := [0, 1]) (by decide) hw (by decide)
        have hb' : b = 3 := by simpa [Val.bound, Val.bounds] using hb
        subst hb'
        exact absurd this (by decide)) tr).1

/-- Reading into an object none of whose views refers to anything changes no document. -/
theorem C110_fresh (t : Ty) (v : Val) (h : Handle) (H : Heap) (ho : Ok H) (hh : okHandle H h) (hv : v.bound = [])
    (n : Nat) (hn : n < H.nodes) (tr : Tree) :
    (Reads (read t v h H).heap n tr ↔ Reads H n tr) ∧ (Reads (patch t v h H).heap n tr ↔ Reads H n tr) :=
  C110_keeps t v h H ho hh (by simp [hv]) n hn (by simp [hv]) tr

example : ∀ n < 4, ∀ tr, (Reads (read tView tView.fresh (some 0) two).heap n tr ↔ Reads two n tr) :=
  fun n hn tr => (C110_fresh tView tView.fresh (some 0) two two_ok (by intro n hn; cases hn; decide) rfl n hn tr).1

/-- If the views of the object refer to distinct nodes, none of them part of the document, the call does
what the tree says: the object means the tree's object, or there is a `deserialize_error`. -/
theorem C110_reads (t : Ty) (v : Val) (h : Handle) (H : Heap) (ho : Ok H) (hty : HasTy t v)
    (hv : ∀ b ∈ v.bound, b < H.nodes) (hnd : v.bound.Nodup)
    (hd : ∀ n, h = some n → n < H.nodes ∧ ∀ b ∈ v.bound, ¬ Within H n b) (tr : Tree) (hs : Shows H h tr) :
    match ofTree t tr with
    | some o => (read t v h H).stop = .ok ∧ Means (read t v h H).heap (read t v h H).out o
    | none => (read t v h H).stop = .fail := by
  have := read_means (R := []) t v h H tr ho (by rw [List.append_nil]; exact hv) hty ⟨hnd, fun _ _ => not_nil⟩
    (by rw [List.append_nil]; exact fun n hn => hd n hn) hs
  cases hof : ofTree t tr with
  | none => rw [hof] at this; exact this
  | some o => rw [hof] at this; exact ⟨this.1, this.2.1⟩

-- a view that refers to the one document takes the other's value
example : (read tView (.record [.view (some 1)]) (some 2) two).stop = .ok ∧
    Means (read tView (.record [.view (some 1)]) (some 2) two).heap (read tView (.record [.view (some 1)]) (some 2) two).out
      (.record [.view (.scalar "2")]) :=
  C110_reads tView (.record [.view (some 1)]) (some 2) two two_ok ⟨trivial, trivial⟩ (by decide) (by decide)
    (by intro n hn
        cases hn
        refine ⟨by decide, ?_⟩
        intro b hb hw
        have := within_closed (S := [2, 3]) (by decide) hw (by decide)
        have hb' : b = 1 := by simpa [Val.bound, Val.bounds] using hb
        subst hb'
        exact absurd this (by decide)) (aIs "2") two_reads.2
-- `{a: {a: 1}}` is no struct with a text
example : (read tText tText.fresh (some 0) (heapOf [.map [("a", 1)], .map [("a", 2)], .scalar "1"])).stop = .fail :=
  C110_reads tText tText.fresh (some 0) (heapOf [.map [("a", 1)], .map [("a", 2)], .scalar "1"]) ⟨by decide, by decide⟩
    ⟨trivial, trivial⟩ (by decide) (by decide) (by intro n hn; cases hn; exact ⟨by decide, by simp [tText, Ty.fresh, Flds.fresh, Val.bound, Val.bounds]⟩)
    (.map (.cons "a" (aIs "1") .nil)) ⟨_, rfl, rfl, ⟨_, rfl, rfl, rfl, trivial⟩, trivial⟩

/-- The views of an object read afresh refer to nodes of the document itself (or to new nodes, for missing
values): they show what later happens to the document. -/
theorem C110_views (t : Ty) (v : Val) (h : Handle) (H : Heap) (ho : Ok H) (hh : okHandle H h) (hv : v.bound = []) :
    ∀ b ∈ (read t v h H).out.bound, (∃ n, h = some n ∧ Within H n b) ∨ H.nodes ≤ b := by
  have hp : Part (fun b => ∃ n, h = some n ∧ Within H n b) H := by
    have hlt : ∀ n m, Within H n m → n < H.nodes → m < H.nodes := by
      intro n m hw
      induction hw with
      | self => exact id
      | kid hk _ ih => exact fun hn => ih (ho.content hn _ hk)
    exact ⟨ho, fun b ⟨n, hn, hw⟩ => hlt n b hw (hh n hn), fun b ⟨n, hn, hw⟩ m hm => ⟨n, hn, hw.more hm⟩⟩
  exact read_part t v h H hp (Nat.le_refl _) (fun n hn => ⟨n, hn, .self n⟩) hv

example : (read tView tView.fresh (some 0) two).out.bound = [1] := by decide

/-- **The finding.**  An object read from `{a: 1}` is read again from `{a: 2}` (or patched with it): the
first document is changed, it is `{a: 2}` now. -/
theorem C110_overwrites_violated :
    ∃ (H : Heap) (n m : Nat) (t : Ty), Ok H ∧ Reads H n (aIs "1") ∧ Reads H m (aIs "2") ∧
      (∀ b, Within H n b → ¬ Within H m b) ∧
      ∃ r s p, r = read t t.fresh (some n) H ∧ s = read t r.out (some m) r.heap ∧ p = patch t r.out (some m) r.heap ∧
        r.stop = .ok ∧ s.stop = .ok ∧ p.stop = .ok ∧ Reads r.heap n (aIs "1") ∧
        Reads s.heap n (aIs "2") ∧ ¬ Reads s.heap n (aIs "1") ∧
        Reads p.heap n (aIs "2") ∧ ¬ Reads p.heap n (aIs "1") := by
  refine ⟨two, 0, 2, tView, two_ok, two_reads.1, two_reads.2, ?_, _, _, _, rfl, rfl, rfl, rfl, rfl, rfl,
    ⟨_, rfl, rfl, rfl, trivial⟩, ⟨_, rfl, rfl, rfl, trivial⟩, ?_, ⟨_, rfl, rfl, rfl, trivial⟩, ?_⟩
  · intro b h1 h2
    have h3 := within_closed (S := [0, 1]) (by decide) h1 (by decide)
    have h4 := within_closed (S := [2, 3]) (by decide) h2 (by decide)
    simp only [List.mem_cons, List.not_mem_nil, or_false] at h3 h4
    omega
  · rintro ⟨ns, h1, h2⟩
    have h3 : ns = [("a", 1)] := by
      have : (read tView (read tView tView.fresh (some 0) two).out (some 2) (read tView tView.fresh (some 0) two).heap).heap.content 0 = .map [("a", 1)] := by decide
      rw [this] at h1
      cases h1
      rfl
    subst h3
    obtain ⟨-, h4, -⟩ := h2
    exact absurd h4 (by unfold Reads; decide)
  · rintro ⟨ns, h1, h2⟩
    have h3 : ns = [("a", 1)] := by
      have : (patch tView (read tView tView.fresh (some 0) two).out (some 2) (read tView tView.fresh (some 0) two).heap).heap.content 0 = .map [("a", 1)] := by decide
      rw [this] at h1
      cases h1
      rfl
    subst h3
    obtain ⟨-, h4, -⟩ := h2
    exact absurd h4 (by unfold Reads; decide)

mutual
/-- A node that lists itself is no finite document. -/
theorem loop_reads {H : Heap} {n : Nat} {k : String} (hc : H.content n = .map [(k, n)]) (t : Tree) : ¬ Reads H n t := by
  match t with
  | .null => simp [Reads, hc]
  | .scalar s => simp [Reads, hc]
  | .seq ts => simp [Reads, hc]
  | .map es =>
    rintro ⟨ns, h1, h2⟩
    rw [hc] at h1
    cases h1
    exact loop_readsMap hc es h2
theorem loop_readsMap {H : Heap} {n : Nat} {k : String} (hc : H.content n = .map [(k, n)]) (es : Entries) :
    ¬ ReadsMap H [(k, n)] es := by
  match es with
  | .nil => simp [ReadsMap]
  | .cons k' t es =>
    rintro ⟨-, h, -⟩
    exact loop_reads hc t h
end

/-- A view of a part of the document is read from the whole: the part now contains itself, and neither it nor
the document is a finite tree any more. -/
theorem C110_cycle_violated :
    ∃ (H : Heap) (n m : Nat), Ok H ∧ Reads H n (aIs "1") ∧ Reads H m (.scalar "1") ∧ Within H n m ∧
      (read .view (.view (some m)) (some n) H).stop = .ok ∧
      ∀ t, ¬ Reads (read .view (.view (some m)) (some n) H).heap n t ∧
        ¬ Reads (read .view (.view (some m)) (some n) H).heap m t := by
  refine ⟨two, 0, 1, two_ok, two_reads.1, rfl, .kid (k := 1) (by decide) (.self 1), rfl, ?_⟩
  intro t
  have h1 := loop_reads (H := (read .view (.view (some 1)) (some 0) two).heap) (n := 1) (k := "a") (by decide)
  have hc : (read .view (.view (some 1)) (some 0) two).heap.content 0 = .map [("a", 1)] := by decide
  refine ⟨?_, h1 t⟩
  cases t with
  | null => simp only [Reads, hc]; exact fun h => by cases h
  | scalar s => simp only [Reads, hc]; exact fun h => by cases h
  | seq ts => rintro ⟨ns, h, -⟩; rw [hc] at h; cases h
  | map es =>
    rintro ⟨ns, h, hr⟩
    rw [hc] at h
    cases h
    exact loop_readsMap (by decide) es hr

/-- `struct { yaml::view a, b, c; }`. -/
def tThree : Ty := .obj (.cons "a" .view (.cons "b" .view (.cons "c" .view .nil)))

/-- `{a: &x 0, b: *x, c: *x}` at node 0 and `{a: &y 1, b: *y, c: 2}` at node 2. -/
def anchors : Heap :=
  heapOf [.map [("a", 1), ("b", 1), ("c", 1)], .scalar "0", .map [("a", 3), ("b", 3), ("c", 4)], .scalar "1", .scalar "2"]

/-- Views that refer to the same node (by an anchor) get in each other's way: read from
`{a: &y 1, b: *y, c: 2}` field `b` shows 2. -/
theorem C110_anchor_violated :
    ∃ r s o, r = read tThree tThree.fresh (some 0) anchors ∧ s = read tThree r.out (some 2) r.heap ∧
      r.stop = .ok ∧ s.stop = .ok ∧
      Reads r.heap 2 (.map (.cons "a" (.scalar "1") (.cons "b" (.scalar "1") (.cons "c" (.scalar "2") .nil)))) ∧
      Means s.heap s.out o ∧ o = .record [.view (.scalar "1"), .view (.scalar "2"), .view (.scalar "2")] := by
  exact ⟨_, _, .record [.view (.scalar "1"), .view (.scalar "2"), .view (.scalar "2")], rfl, rfl, rfl, rfl,
    ⟨_, rfl, rfl, rfl, rfl, rfl, rfl, rfl, trivial⟩, ⟨rfl, rfl, rfl, trivial⟩, rfl⟩

/-! ### C111: writing -/

/-- Writing an object changes no document, and the result reads as the object's tree. -/
theorem C111_writes (skip : Bool) (t : Ty) (v : Val) (H : Heap) (ho : Ok H) (hw : t.Wf) (ht : HasTy t v)
    (hv : ∀ b ∈ v.bound, b < H.nodes) :
    (∀ n < H.nodes, ∀ tr, Reads (write skip t v H).2 n tr ↔ Reads H n tr) ∧
    ∀ o, Means H v o → Shows (write skip t v H).2 (write skip t v H).1 (toTree skip t o) := by
  have h := write_means (skip := skip) (B := v.bound) t v H ho hv (fun n hn => hn) hw ht
  refine ⟨fun n hn tr => ?_, h.shows⟩
  have hs : Safe [] H n := ⟨hn, fun b hb => by cases hb⟩
  exact hs.reads nil_sub ho h.grows.keeps

-- a struct with a text, a view of a document and an optional without value
example :
    let t : Ty := .obj (.cons "x" (.scalar fun _ => true) (.cons "doc" .view (.cons "no" (.opt .view) .nil)))
    let v : Val := .record [.scalar "t", .view (some 0), .opt none]
    Shows (write true t v two).2 (write true t v two).1
      (.map (.cons "x" (.scalar "t") (.cons "doc" (aIs "1") .nil))) := by
  intro t v
  exact (C111_writes true t v two two_ok (by simp [t, Ty.Wf, Flds.Wf, Flds.names])
    (by simp [t, v, HasTy, HasTys]) (by simp [v, Val.bound, Val.bounds, two, heapOf])).2
    (.record [.scalar "t", .view (aIs "1"), .opt none]) ⟨rfl, two_reads.1, trivial, trivial⟩

/-- The result of writing an object without views is independent of all documents: whatever is done to the
result (and nodes made since) they read as before, and whatever is done to them the result reads as before. -/
theorem C111_independent (skip : Bool) (t : Ty) (v : Val) (H : Heap) (ho : Ok H) (hw : t.Wf) (ht : HasTy t v)
    (hv : v.bound = []) (root : Nat) (hr : (write skip t v H).1 = some root) (es : List Edit) :
    (Confined (Within (write skip t v H).2 root) (write skip t v H).2.nodes (write skip t v H).2 es →
      ∀ n < H.nodes, ∀ tr, Reads (runAll (write skip t v H).2 es) n tr ↔ Reads H n tr) ∧
    (Confined (fun m => m < H.nodes) (write skip t v H).2.nodes (write skip t v H).2 es →
      ∀ tr, Reads (runAll (write skip t v H).2 es) root tr ↔ Reads (write skip t v H).2 root tr) := by
  have h := write_means (skip := skip) (B := []) t v H ho (by simp [okBound]) (by simp [hv]) hw ht
  have hold := h.grows.old ho
  have hnew := h.grows.new ho
  have hroot : H.nodes ≤ root ∧ root < (write skip t v H).2.nodes := by
    have := h.fresh root hr
    refine ⟨?_, this.1⟩
    rcases this.2 with h | h
    · exact h
    · cases h
  constructor
  · intro hc n hn tr
    have hin : ∀ m, Within (write skip t v H).2 root m → H.nodes ≤ m ∧ m < (write skip t v H).2.nodes :=
      fun m hm => hnew.within hm hroot
    have hk := Split.runAll (A := Within (write skip t v H).2 root) (start := (write skip t v H).2.nodes)
      (fun m hm => by have := hin m hm; omega) (fun m hm => Nat.lt_of_lt_of_le hm h.grows.keeps.nodes) es _ hold
      (fun m hm => (hin m hm).2) hc
    rw [hk.reads hold hn]
    exact (C111_writes skip t v H ho hw ht (by simp [hv])).1 n hn tr
  · intro hc tr
    have hk := Split.runAll (A := fun m => m < H.nodes) (start := (write skip t v H).2.nodes)
      (fun m hm => by omega) (fun m hm => hm.2) es _ hnew
      (fun m hm => Nat.lt_of_lt_of_le hm h.grows.keeps.nodes) hc
    exact hk.reads hnew hroot

-- `{a: t}` is written and its entry changed: the other documents stay
example : ∀ n < 4, ∀ tr,
    Reads (runAll (write false tText (.record [.scalar "t"]) two).2 [.set 6 "u", .put 4 "b" 6]) n tr ↔ Reads two n tr :=
  (C111_independent false tText (.record [.scalar "t"]) two two_ok (by simp [tText, Ty.Wf, Flds.Wf, Flds.names])
    ⟨trivial, trivial⟩ rfl 4 rfl [.set 6 "u", .put 4 "b" 6]).1
    ⟨by
      intro m hm
      have : m = 6 := by simpa [Edit.uses] using hm
      subst this
      exact .inl (.kid (k := 6) (by decide) (.self _)), by
      intro m hm
      have : m = 4 ∨ m = 6 := by simpa [Edit.uses] using hm
      rcases this with rfl | rfl
      · exact .inl (.self _)
      · exact .inl (.kid (k := 6) (by decide) (.self _)), trivial⟩

/-- **The finding.**  With a view in the object the result shares its nodes: a change made to the result
changes the document the view came from, and a change made to the document changes the result. -/
theorem C111_shared_violated :
    ∃ (H : Heap) (t : Ty) (v : Val) (root entry : Nat), Ok H ∧ t.Wf ∧ HasTy t v ∧ (∀ b ∈ v.bound, b < H.nodes) ∧
      (write false t v H).1 = some root ∧ Within (write false t v H).2 root entry ∧ H.nodes ≤ entry ∧
      Reads H 0 (aIs "1") ∧ Reads (write false t v H).2 root (aIs "1") ∧
      Reads (runAll (write false t v H).2 [.set entry "2"]) 0 (aIs "2") ∧
      Reads (runAll (write false t v H).2 [.set 1 "2"]) root (aIs "2") := by
  refine ⟨two, tView, .record [.view (some 1)], 4, 5, two_ok, by simp [tView, Ty.Wf, Flds.Wf, Flds.names],
    ⟨trivial, trivial⟩, by decide, rfl, .kid (k := 5) (by decide) (.self _), by decide, two_reads.1,
    ⟨_, rfl, rfl, rfl, trivial⟩, ⟨_, rfl, rfl, rfl, trivial⟩, ⟨_, rfl, rfl, rfl, trivial⟩⟩

end Verif.YamlNode
