import Verif.Path.ObjectsSpec
import Verif.Path.AllocProps
/-
Lemmas for objects of type `path` (C141): who owns which memory.
-/
namespace Verif.Path
open Spec

theorem obj_setObj (w : World) (o : Nat) (x : Option Obj) (k : Nat) :
    (w.setObj o x).obj k = if k = o ∧ o < w.objs.length then x else w.obj k := by
  unfold World.obj World.setObj
  simp only [List.getElem?_set]
  by_cases h : o = k
  · subst h
    by_cases hl : o < w.objs.length <;> simp [hl]
  · rw [if_neg h, if_neg (fun hk => h hk.1.symm)]

theorem block_setObj (w : World) (o : Nat) (x : Option Obj) (b : Nat) : (w.setObj o x).block b = w.block b := rfl

theorem obj_setBlock (w : World) (b : Nat) (x : Option Block) (k : Nat) : (w.setBlock b x).obj k = w.obj k := rfl

theorem block_setBlock (w : World) (b : Nat) (x : Option Block) (k : Nat) :
    (w.setBlock b x).block k = if k = b ∧ b < w.blocks.length then x else w.block k := by
  unfold World.block World.setBlock
  simp only [List.getElem?_set]
  by_cases h : b = k
  · subst h
    by_cases hl : b < w.blocks.length <;> simp [hl]
  · rw [if_neg h, if_neg (fun hk => h hk.1.symm)]

theorem obj_lt {w : World} {o : Nat} {x : Obj} (h : w.obj o = some x) : o < w.objs.length := by
  unfold World.obj at h
  apply Classical.byContradiction
  intro hn
  rw [List.getElem?_eq_none (by omega)] at h
  cases h

theorem block_lt {w : World} {b : Nat} {x : Block} (h : w.block b = some x) : b < w.blocks.length := by
  unfold World.block at h
  apply Classical.byContradiction
  intro hn
  rw [List.getElem?_eq_none (by omega)] at h
  cases h

theorem block_append (w : World) (l : List (Option Obj)) (x : Block) (b : Nat) :
    World.block ⟨l, w.blocks ++ [some x]⟩ b = if b = w.blocks.length then some x else w.block b := by
  unfold World.block
  simp only [List.getElem?_append]
  by_cases h : b < w.blocks.length
  · rw [if_pos h, if_neg (by omega)]
  · rw [if_neg h]
    by_cases hb : b = w.blocks.length
    · subst hb; simp
    · rw [if_neg hb, List.getElem?_eq_none (by simp; omega), List.getElem?_eq_none (by omega)]

theorem obj_append (w : World) (l : List (Option Block)) (x : Obj) (o : Nat) :
    World.obj ⟨w.objs ++ [some x], l⟩ o = if o = w.objs.length then some x else w.obj o := by
  unfold World.obj
  simp only [List.getElem?_append]
  by_cases h : o < w.objs.length
  · rw [if_pos h, if_neg (by omega)]
  · rw [if_neg h]
    by_cases hb : o = w.objs.length
    · subst hb; simp
    · rw [if_neg hb, List.getElem?_eq_none (by simp; omega), List.getElem?_eq_none (by omega)]

/-- Every object has its memory, no two share any, and there is no other. -/
structure Inv (w : World) : Prop where
  arr : ∀ {o x}, w.obj o = some x → ∃ b, w.block x.arr = some b ∧ b.elems.length ≤ b.cap
  home : ∀ {o x}, w.obj o = some x → ∃ b, w.block x.home = some b ∧ b.cap = 15 ∧ (x.arr ≠ x.home → b.elems = [])
  apart : ∀ {o o' x x'}, w.obj o = some x → w.obj o' = some x' → o ≠ o' →
    x.arr ≠ x'.arr ∧ x.arr ≠ x'.home ∧ x.home ≠ x'.arr ∧ x.home ≠ x'.home
  owned : ∀ {b}, w.block b ≠ none → ∃ o x, w.obj o = some x ∧ (x.arr = b ∨ x.home = b)

/-- The object and its memory are as before. -/
structure Same (w w' : World) (k : Nat) : Prop where
  obj : w'.obj k = w.obj k
  arr : ∀ y, w.obj k = some y → w'.block y.arr = w.block y.arr

theorem Same.refl (w : World) (k : Nat) : Same w w k := ⟨rfl, fun _ _ => rfl⟩

theorem Same.trans {a b c : World} {k : Nat} (h1 : Same a b k) (h2 : Same b c k) : Same a c k :=
  ⟨h2.obj.trans h1.obj, fun y hy => (h2.arr y (h1.obj.trans hy)).trans (h1.arr y hy)⟩

theorem Same.value {w w' : World} {k : Nat} (h : Same w w' k) : w'.value k = w.value k := by
  unfold World.value
  rw [h.obj]
  cases hk : w.obj k with
  | none => rfl
  | some y => simp only [h.arr y hk]

/-- One object changes. -/
structure Changes (w w' : World) (o : Nat) (p : Option Path) : Prop where
  inv : Inv w'
  count : w'.objs.length = w.objs.length
  value : w'.value o = p
  others : ∀ k, k ≠ o → Same w w' k

theorem inv_empty : Inv World.empty := by
  constructor <;> intros <;> simp_all [World.empty, World.obj, World.block]

theorem value_of {w : World} {o : Nat} {x : Obj} {b : Block} (h : w.obj o = some x) (hb : w.block x.arr = some b) :
    w.value o = some ⟨x.text, b.elems⟩ := by
  unfold World.value; rw [h]; simp only [hb]

theorem value_some {w : World} {o : Nat} {p : Path} (h : w.value o = some p) :
    ∃ x b, w.obj o = some x ∧ w.block x.arr = some b ∧ p = ⟨x.text, b.elems⟩ := by
  unfold World.value at h
  cases hx : w.obj o with
  | none => rw [hx] at h; cases h
  | some x =>
    rw [hx] at h
    simp only at h
    cases hb : w.block x.arr with
    | none => rw [hb] at h; cases h
    | some b => rw [hb] at h; cases h; exact ⟨x, b, rfl, hb, rfl⟩

theorem create_change {w : World} (hi : Inv w) :
    Inv w.create ∧ w.create.objs.length = w.objs.length + 1 ∧ w.create.value w.objs.length = some ⟨[], []⟩ ∧
    ∀ k, k ≠ w.objs.length → Same w w.create k := by
  have ho : ∀ k, w.create.obj k = if k = w.objs.length then some ⟨[], w.blocks.length, w.blocks.length⟩ else w.obj k :=
    fun k => obj_append w _ _ k
  have hb : ∀ b, w.create.block b = if b = w.blocks.length then some ⟨15, []⟩ else w.block b :=
    fun b => block_append w _ _ b
  have hlt : ∀ {o x}, w.obj o = some x → x.arr < w.blocks.length ∧ x.home < w.blocks.length := by
    intro o x h
    obtain ⟨b, h1, -⟩ := hi.arr h
    obtain ⟨c, h2, -⟩ := hi.home h
    exact ⟨block_lt h1, block_lt h2⟩
  refine ⟨⟨?_, ?_, ?_, ?_⟩, by simp [World.create], ?_, ?_⟩
  · intro o x h
    rw [ho] at h
    split at h
    · cases h; exact ⟨⟨15, []⟩, by rw [hb]; simp, by simp⟩
    · have := hlt h
      rw [hb, if_neg (by omega)]; exact hi.arr h
  · intro o x h
    rw [ho] at h
    split at h
    · cases h; exact ⟨⟨15, []⟩, by rw [hb]; simp, rfl, fun _ => rfl⟩
    · have := hlt h
      rw [hb, if_neg (by omega)]; exact hi.home h
  · intro o o' x x' h h' hne
    rw [ho] at h h'
    split at h
    · cases h
      split at h'
      · omega
      · have := hlt h'
        simp only; omega
    · split at h'
      · cases h'
        have := hlt h
        simp only; omega
      · exact hi.apart h h' hne
  · intro b h
    rw [hb] at h
    split at h
    · rename_i he
      exact ⟨w.objs.length, _, by rw [ho]; simp; rfl, .inl he.symm⟩
    · obtain ⟨o, x, h1, h2⟩ := hi.owned h
      have := obj_lt h1
      exact ⟨o, x, by rw [ho, if_neg (by omega)]; exact h1, h2⟩
  · exact value_of (x := ⟨[], w.blocks.length, w.blocks.length⟩) (b := ⟨15, []⟩) (by rw [ho]; simp) (by rw [hb]; simp)
  · intro k hk
    refine ⟨by rw [ho, if_neg hk], fun y hy => ?_⟩
    have := hlt hy
    rw [hb, if_neg (by omega)]

/-- The members of one object and its memory change, and nothing else. -/
theorem change_of {w w' : World} {o : Nat} {x x' : Obj} {b' : Block} (hi : Inv w) (hx : w.obj o = some x)
    (hhome : x'.home = x.home) (ho : ∀ k, w'.obj k = if k = o then some x' else w.obj k)
    (hlen : w'.objs.length = w.objs.length) (hb : w'.block x'.arr = some b') (hfit : b'.elems.length ≤ b'.cap)
    (hh : ∃ c, w'.block x.home = some c ∧ c.cap = 15 ∧ (x'.arr ≠ x.home → c.elems = []))
    (hfar : ∀ k y, k ≠ o → w.obj k = some y → x'.arr ≠ y.arr ∧ x'.arr ≠ y.home)
    (hkeep : ∀ k y, k ≠ o → w.obj k = some y → w'.block y.arr = w.block y.arr ∧ w'.block y.home = w.block y.home)
    (hown : ∀ b, w'.block b ≠ none → b = x'.arr ∨ b = x.home ∨ (w.block b ≠ none ∧ b ≠ x.arr ∧ b ≠ x.home)) :
    Changes w w' o (some ⟨x'.text, b'.elems⟩) := by
  refine ⟨⟨?_, ?_, ?_, ?_⟩, hlen, value_of (by rw [ho]; simp) hb, ?_⟩
  · intro k y h
    rw [ho] at h
    split at h
    · cases h; exact ⟨b', hb, hfit⟩
    · rename_i hk
      rw [(hkeep k y hk h).1]; exact hi.arr h
  · intro k y h
    rw [ho] at h
    split at h
    · cases h; rw [hhome]; exact hh
    · rename_i hk
      rw [(hkeep k y hk h).2]; exact hi.home h
  · intro k k' y y' h h' hne
    rw [ho] at h h'
    split at h
    · cases h
      split at h'
      · omega
      · rename_i hk'
        have h1 := hfar k' y' hk' h'
        have h2 := hi.apart hx h' (Ne.symm hk')
        rw [hhome]
        exact ⟨h1.1, h1.2, h2.2.2.1, h2.2.2.2⟩
    · rename_i hk
      split at h'
      · cases h'
        have h1 := hfar k y hk h
        have h2 := hi.apart hx h (Ne.symm hk)
        rw [hhome]
        exact ⟨h1.1.symm, h2.2.2.1.symm, h1.2.symm, h2.2.2.2.symm⟩
      · exact hi.apart h h' hne
  · intro b h
    rcases hown b h with rfl | rfl | ⟨h1, h2, h3⟩
    · exact ⟨o, x', by rw [ho]; simp, .inl rfl⟩
    · exact ⟨o, x', by rw [ho]; simp, .inr hhome⟩
    · obtain ⟨k, y, hk, hy⟩ := hi.owned h1
      have hko : k ≠ o := by
        rintro rfl
        rw [hx] at hk
        cases hk
        rcases hy with hy | hy
        · exact h2 hy.symm
        · exact h3 hy.symm
      exact ⟨k, y, by rw [ho, if_neg hko]; exact hk, hy⟩
  · intro k hk
    exact ⟨by rw [ho, if_neg hk], fun y hy => (hkeep k y hk hy).1⟩

theorem put_change {w : World} (hi : Inv w) {o : Nat} {x : Obj} {b : Block} (hx : w.obj o = some x)
    (hb : w.block x.arr = some b) (text : Str) (segs : List Segment) (cap : Nat) (hf : segs.length ≤ cap) :
    Changes w (w.put o x b text segs cap) o (some ⟨text, segs⟩) := by
  have hol := obj_lt hx
  have hbl := block_lt hb
  obtain ⟨c, hc, hc15, hce⟩ := hi.home hx
  have hcl := block_lt hc
  have hother : ∀ k y, k ≠ o → w.obj k = some y →
      (x.arr ≠ y.arr ∧ x.arr ≠ y.home ∧ x.home ≠ y.arr ∧ x.home ≠ y.home) ∧ y.arr < w.blocks.length ∧ y.home < w.blocks.length := by
    intro k y hk hy
    obtain ⟨d, hd, -⟩ := hi.arr hy
    obtain ⟨e, he, -⟩ := hi.home hy
    exact ⟨hi.apart hx hy (Ne.symm hk), block_lt hd, block_lt he⟩
  unfold World.put
  by_cases hcap : cap = b.cap
  · rw [if_pos hcap]
    have hblk : ∀ k, ((w.setBlock x.arr (some ⟨cap, segs⟩)).setObj o (some { x with text := text })).block k =
        if k = x.arr then some ⟨cap, segs⟩ else w.block k := by
      intro k
      rw [block_setObj, block_setBlock]
      simp [hbl]
    refine change_of (x' := { x with text := text }) (b' := ⟨cap, segs⟩) hi hx rfl ?_ ?_ ?_ hf ?_ ?_ ?_ ?_
    · intro k
      rw [obj_setObj, obj_setBlock]
      simp [show o < (w.setBlock x.arr (some ⟨cap, segs⟩)).objs.length from hol]
    · simp [World.setObj, World.setBlock]
    · rw [hblk]; simp
    · rw [hblk]
      by_cases he : x.home = x.arr
      · rw [if_pos he]
        refine ⟨_, rfl, ?_, fun h => absurd he.symm h⟩
        rw [he, hb] at hc
        cases hc
        exact hcap.trans hc15
      · rw [if_neg he]
        exact ⟨c, hc, hc15, hce⟩
    · intro k y hk hy
      exact ⟨(hother k y hk hy).1.1, (hother k y hk hy).1.2.1⟩
    · intro k y hk hy
      have := (hother k y hk hy).1
      rw [hblk, hblk, if_neg this.1.symm, if_neg this.2.1.symm]
      exact ⟨rfl, rfl⟩
    · intro k h
      rw [hblk] at h
      by_cases h1 : k = x.arr
      · exact .inl h1
      · rw [if_neg h1] at h
        by_cases h2 : k = x.home
        · exact .inr (.inl h2)
        · exact .inr (.inr ⟨h, h1, h2⟩)
  · rw [if_neg hcap]
    simp only
    generalize hw2 : (if x.arr = x.home then (w.release x).setBlock x.home (some ⟨b.cap, []⟩) else w.release x) = w2
    have hobjs : w2.objs = w.objs := by
      rw [← hw2]; unfold World.release
      split <;> simp [World.setBlock]
    have hlen : w2.blocks.length = w.blocks.length := by
      rw [← hw2]; unfold World.release
      split <;> simp [World.setBlock]
    have hblk : ∀ k, w2.block k = if k = x.arr then (if x.arr = x.home then some ⟨b.cap, []⟩ else none) else w.block k := by
      intro k
      rw [← hw2]; unfold World.release
      by_cases he : x.arr = x.home
      · simp only [he, if_true]
        rw [block_setBlock]
        simp [hcl]
      · simp only [he, if_false]
        rw [block_setBlock]
        simp [hbl]
    have hblk' : ∀ k, (World.setObj ⟨w2.objs, w2.blocks ++ [some ⟨cap, segs⟩]⟩ o
        (some { x with text := text, arr := w2.blocks.length })).block k =
        if k = w.blocks.length then some ⟨cap, segs⟩
        else if k = x.arr then (if x.arr = x.home then some ⟨b.cap, []⟩ else none) else w.block k := by
      intro k
      rw [block_setObj, block_append, hblk, hlen]
    refine change_of (x' := { x with text := text, arr := w2.blocks.length }) (b' := ⟨cap, segs⟩) hi hx rfl ?_ ?_ ?_ hf ?_ ?_ ?_ ?_
    · intro k
      rw [obj_setObj]
      simp only [hobjs, hol, and_true]
      split
      · rfl
      · rfl
    · simp [World.setObj, hobjs]
    · rw [hblk', hlen]; simp
    · rw [hblk', if_neg (by omega)]
      by_cases he : x.home = x.arr
      · rw [if_pos he, if_pos he.symm]
        refine ⟨_, rfl, ?_, fun _ => rfl⟩
        rw [he, hb] at hc
        cases hc
        exact hc15
      · rw [if_neg he]
        exact ⟨c, hc, hc15, fun _ => hce (Ne.symm he)⟩
    · intro k y hk hy
      have := (hother k y hk hy).2
      simp only
      omega
    · intro k y hk hy
      have h1 := (hother k y hk hy).1
      have h2 := (hother k y hk hy).2
      rw [hblk', hblk', if_neg (by omega), if_neg h1.1.symm, if_neg (by omega), if_neg h1.2.1.symm]
      exact ⟨rfl, rfl⟩
    · intro k h
      rw [hblk'] at h
      simp only [hlen]
      by_cases h0 : k = w.blocks.length
      · exact .inl h0
      · rw [if_neg h0] at h
        by_cases h1 : k = x.arr
        · rw [if_pos h1] at h
          split at h
          · rename_i he; exact .inr (.inl (h1.trans he))
          · exact absurd rfl h
        · rw [if_neg h1] at h
          by_cases h2 : k = x.home
          · exact .inr (.inl h2)
          · exact .inr (.inr ⟨h, h1, h2⟩)

theorem destroy_change {w w' : World} (hi : Inv w) {o : Nat} (h : w.destroy o = some w') : Changes w w' o none := by
  unfold World.destroy at h
  cases hx : w.obj o with
  | none => rw [hx] at h; cases h
  | some x =>
    rw [hx] at h
    simp only [Option.some.injEq] at h
    subst h
    have hol := obj_lt hx
    obtain ⟨b, hb, -⟩ := hi.arr hx
    obtain ⟨c, hc, -⟩ := hi.home hx
    have hbl := block_lt hb
    have hcl := block_lt hc
    have hobj : ∀ k, (((w.release x).setBlock x.home none).setObj o none).obj k = if k = o then none else w.obj k := by
      intro k
      have h1 : ((w.release x).setBlock x.home none).objs = w.objs := by
        unfold World.release; split <;> rfl
      rw [obj_setObj, h1]
      simp only [hol, and_true]
      split
      · rfl
      · unfold World.obj; rw [h1]
    have hblk : ∀ k, (((w.release x).setBlock x.home none).setObj o none).block k =
        if k = x.arr ∨ k = x.home then none else w.block k := by
      intro k
      rw [block_setObj, block_setBlock]
      unfold World.release
      split
      · rename_i he
        simp [hcl, he]
      · rename_i he
        have : x.home < (w.setBlock x.arr none).blocks.length := by simp [World.setBlock, hcl]
        rw [block_setBlock]
        simp only [this, hbl, and_true]
        by_cases h1 : k = x.home <;> by_cases h2 : k = x.arr <;> simp [h1, h2]
    have hother : ∀ k y, k ≠ o → w.obj k = some y →
        (((w.release x).setBlock x.home none).setObj o none).block y.arr = w.block y.arr ∧
        (((w.release x).setBlock x.home none).setObj o none).block y.home = w.block y.home := by
      intro k y hk hy
      have := hi.apart hx hy (Ne.symm hk)
      rw [hblk, hblk, if_neg, if_neg]
      · exact ⟨rfl, rfl⟩
      · rintro (h | h)
        · exact this.2.1 h.symm
        · exact this.2.2.2 h.symm
      · rintro (h | h)
        · exact this.1 h.symm
        · exact this.2.2.1 h.symm
    refine ⟨⟨?_, ?_, ?_, ?_⟩, ?_, ?_, ?_⟩
    · intro k y h
      rw [hobj] at h
      split at h
      · cases h
      · rename_i hk
        rw [(hother k y hk h).1]; exact hi.arr h
    · intro k y h
      rw [hobj] at h
      split at h
      · cases h
      · rename_i hk
        rw [(hother k y hk h).2]; exact hi.home h
    · intro k k' y y' h h' hne
      rw [hobj] at h h'
      split at h
      · cases h
      · split at h'
        · cases h'
        · exact hi.apart h h' hne
    · intro k h
      rw [hblk] at h
      split at h
      · exact absurd rfl h
      · rename_i hk
        obtain ⟨j, y, hj, hy⟩ := hi.owned h
        have hjo : j ≠ o := by
          rintro rfl
          rw [hx] at hj
          cases hj
          exact hk (hy.imp Eq.symm Eq.symm)
        exact ⟨j, y, by rw [hobj, if_neg hjo]; exact hj, hy⟩
    · unfold World.release
      split <;> simp [World.setObj, World.setBlock]
    · unfold World.value
      rw [hobj]; simp
    · intro k hk
      exact ⟨by rw [hobj, if_neg hk], fun y hy => (hother k y hk hy).1⟩

/-- Handing a block over. -/
theorem steal_change {w : World} (hi : Inv w) {d s : Nat} {x y : Obj} {b c : Block} (hds : d ≠ s) (hx : w.obj d = some x)
    (hy : w.obj s = some y) (hb : w.block x.arr = some b) (hc : w.block y.arr = some c) (hne : y.arr ≠ y.home) {w2 w' : World}
    (hw2 : (if x.arr = x.home then (w.release x).setBlock x.home (some ⟨b.cap, []⟩) else w.release x) = w2)
    (hw' : (w2.setObj d (some { x with text := y.text, arr := y.arr })).setObj s (some { y with text := [], arr := y.home }) = w') :
    Inv w' ∧ w'.objs.length = w.objs.length ∧ w'.value d = some ⟨y.text, c.elems⟩ ∧ w'.value s = some ⟨[], []⟩ ∧
    ∀ k, k ≠ d → k ≠ s → Same w w' k := by
  have hdl := obj_lt hx
  have hsl := obj_lt hy
  have hbl := block_lt hb
  obtain ⟨e, he, he15, hee⟩ := hi.home hx
  have hel := block_lt he
  obtain ⟨f, hf, hf15, hfe⟩ := hi.home hy
  obtain ⟨c', hc', hcc⟩ := hi.arr hy
  rw [hc] at hc'
  cases hc'
  have hobjs : w2.objs = w.objs := by
    rw [← hw2]; unfold World.release
    split <;> simp [World.setBlock]
  have hobj2 : ∀ k, w2.obj k = w.obj k := by
    intro k; unfold World.obj; rw [hobjs]
  have hblk : ∀ k, w'.block k = if k = x.arr then (if x.arr = x.home then some ⟨b.cap, []⟩ else none) else w.block k := by
    intro k
    rw [← hw', block_setObj, block_setObj, ← hw2]; unfold World.release
    by_cases he : x.arr = x.home
    · simp only [he, if_true]
      rw [block_setBlock]
      simp [hel]
    · simp only [he, if_false]
      rw [block_setBlock]
      simp [hbl]
  have hobj : ∀ k, w'.obj k = if k = s then some { y with text := [], arr := y.home }
      else if k = d then some { x with text := y.text, arr := y.arr } else w.obj k := by
    intro k
    have h1 : s < (w2.setObj d (some { x with text := y.text, arr := y.arr })).objs.length := by
      simp [World.setObj, hobjs, hsl]
    rw [← hw', obj_setObj, obj_setObj, hobj2, hobjs]
    simp only [hdl, h1, and_true]
  have hap := hi.apart hx hy hds
  have hxh : w'.block x.home = some ⟨15, []⟩ := by
    rw [hblk]
    by_cases h : x.home = x.arr
    · rw [if_pos h, if_pos h.symm]
      rw [h, hb] at he
      cases he
      rw [he15]
    · rw [if_neg h, he, ← hee (Ne.symm h), ← he15]
  have hya : w'.block y.arr = some c := by rw [hblk, if_neg hap.1.symm]; exact hc
  have hyh : w'.block y.home = some ⟨15, []⟩ := by
    rw [hblk, if_neg hap.2.1.symm, hf, ← hfe hne, ← hf15]
  have hother : ∀ k z, k ≠ d → w.obj k = some z → w'.block z.arr = w.block z.arr ∧ w'.block z.home = w.block z.home := by
    intro k z hk hz
    have := hi.apart hx hz (Ne.symm hk)
    rw [hblk, hblk, if_neg this.1.symm, if_neg this.2.1.symm]
    exact ⟨rfl, rfl⟩
  refine ⟨⟨?_, ?_, ?_, ?_⟩, ?_, ?_, ?_, ?_⟩
  · intro k z h
    rw [hobj] at h
    split at h
    · cases h; exact ⟨_, hyh, by simp⟩
    · split at h
      · cases h; exact ⟨c, hya, hcc⟩
      · rename_i h1 h2
        rw [(hother k z h2 h).1]; exact hi.arr h
  · intro k z h
    rw [hobj] at h
    split at h
    · cases h; exact ⟨_, hyh, rfl, fun h => absurd rfl h⟩
    · split at h
      · cases h; exact ⟨_, hxh, rfl, fun _ => rfl⟩
      · rename_i h1 h2
        rw [(hother k z h2 h).2]; exact hi.home h
  · intro k k' z z' h h' hkk
    rw [hobj] at h h'
    split at h
    · rename_i hk
      subst hk
      cases h
      split at h'
      · omega
      · rename_i hk's
        split at h'
        · cases h'
          exact ⟨hne.symm, hap.2.2.2.symm, hne.symm, hap.2.2.2.symm⟩
        · have := hi.apart hy h' hkk
          exact ⟨this.2.2.1, this.2.2.2, this.2.2.1, this.2.2.2⟩
    · rename_i hks
      split at h
      · rename_i hkd
        subst hkd
        cases h
        split at h'
        · cases h'
          exact ⟨hne, hne, hap.2.2.2, hap.2.2.2⟩
        · rename_i hk's
          split at h'
          · omega
          · have h1 := hi.apart hy h' (Ne.symm hk's)
            have h2 := hi.apart hx h' hkk
            exact ⟨h1.1, h1.2.1, h2.2.2.1, h2.2.2.2⟩
      · rename_i hkd
        split at h'
        · cases h'
          have := hi.apart hy h (Ne.symm hks)
          exact ⟨this.2.1 |>.symm |> fun _ => this.2.2.1.symm, this.2.2.1.symm, this.2.2.2.symm, this.2.2.2.symm⟩
        · split at h'
          · cases h'
            have h1 := hi.apart hy h (Ne.symm hks)
            have h2 := hi.apart hx h (Ne.symm hkd)
            exact ⟨h1.1.symm, h2.2.2.1.symm, h1.2.1.symm, h2.2.2.2.symm⟩
          · exact hi.apart h h' hkk
  · intro k h
    rw [hblk] at h
    have hd' : w'.obj d = some { x with text := y.text, arr := y.arr } := by rw [hobj, if_neg hds]; simp
    have hs' : w'.obj s = some { y with text := [], arr := y.home } := by rw [hobj]; simp
    split at h
    · rename_i hk
      split at h
      · rename_i hh
        exact ⟨d, _, hd', .inr (by simp only; omega)⟩
      · exact absurd rfl h
    · rename_i hk
      obtain ⟨j, z, hj, hz⟩ := hi.owned h
      by_cases hjs : j = s
      · subst hjs
        rw [hy] at hj
        cases hj
        rcases hz with hz | hz
        · exact ⟨d, _, hd', .inl hz⟩
        · exact ⟨j, _, hs', .inr hz⟩
      · by_cases hjd : j = d
        · subst hjd
          rw [hx] at hj
          cases hj
          rcases hz with hz | hz
          · exact absurd hz.symm hk
          · exact ⟨j, _, hd', .inr hz⟩
        · exact ⟨j, z, by rw [hobj, if_neg hjs, if_neg hjd]; exact hj, hz⟩
  · rw [← hw']; simp [World.setObj, hobjs]
  · exact value_of (x := { x with text := y.text, arr := y.arr }) (by rw [hobj, if_neg hds]; simp) hya
  · exact value_of (x := { y with text := [], arr := y.home }) (b := ⟨15, []⟩) (by rw [hobj]; simp) hyh
  · intro k hkd hks
    refine ⟨by rw [hobj, if_neg hks, if_neg hkd], fun z hz => ?_⟩
    exact (hother k z hkd hz).1

theorem alive_iff {w : World} (hi : Inv w) (o : Nat) : w.value o ≠ none ↔ ∃ x b, w.obj o = some x ∧ w.block x.arr = some b := by
  constructor
  · intro h
    cases hv : w.value o with
    | none => exact absurd hv h
    | some p =>
      obtain ⟨x, b, h1, h2, -⟩ := value_some hv
      exact ⟨x, b, h1, h2⟩
  · rintro ⟨x, b, h1, h2⟩
    rw [value_of h1 h2]; nofun

/-- What is defined, of one object. -/
theorem alive_obj {w : World} (hi : Inv w) {o : Nat} {x : Obj} (h : w.obj o = some x) :
    ∃ b, w.block x.arr = some b ∧ w.value o = some ⟨x.text, b.elems⟩ ∧ b.elems.length ≤ b.cap := by
  obtain ⟨b, h1, h2⟩ := hi.arr h
  exact ⟨b, h1, value_of h h1, h2⟩

theorem dead_obj {w : World} (hi : Inv w) {o : Nat} (h : w.obj o = none) : w.value o = none := by
  unfold World.value; rw [h]

theorem set_change (L : Lib) {w : World} (hi : Inv w) (o : Nat) (v : Str) :
    (w.value o ≠ none → ∃ w', w.set L o v = some w' ∧ Changes w w' o (some (Path.default.set v).1)) ∧
    (w.value o = none → w.set L o v = none) := by
  cases hx : w.obj o with
  | none =>
    refine ⟨fun h => absurd (dead_obj hi hx) h, fun _ => ?_⟩
    unfold World.set; rw [hx]
  | some x =>
    obtain ⟨b, hb, hv, hf⟩ := alive_obj hi hx
    refine ⟨fun _ => ?_, fun h => by rw [hv] at h; cases h⟩
    unfold World.set
    rw [hx]
    simp only [hb]
    refine ⟨_, rfl, ?_⟩
    have hg := C140_granted L.heap (fun _ => rfl) ⟨⟨x.text, b.elems⟩, v.length, b.cap, (), []⟩ v Path.default
    have hfit := C140_fits L.heap ⟨⟨x.text, b.elems⟩, v.length, b.cap, (), []⟩ v
    have := put_change hi hx hb (Path.default.set v).1.value (Path.default.set v).1.segments
      ((Store.set L.heap ⟨⟨x.text, b.elems⟩, v.length, b.cap, (), []⟩ v).1.segRoom) (by rw [← hg.1]; exact hfit.2.1)
    rw [hg.1]
    exact this

theorem clear_change {w : World} (hi : Inv w) (o : Nat) :
    (w.value o ≠ none → ∃ w', w.clear o = some w' ∧ Changes w w' o (some ⟨[], []⟩)) ∧
    (w.value o = none → w.clear o = none) := by
  cases hx : w.obj o with
  | none =>
    refine ⟨fun h => absurd (dead_obj hi hx) h, fun _ => ?_⟩
    unfold World.clear; rw [hx]
  | some x =>
    obtain ⟨b, hb, hv, hf⟩ := alive_obj hi hx
    refine ⟨fun _ => ?_, fun h => by rw [hv] at h; cases h⟩
    unfold World.clear
    rw [hx]
    simp only [hb]
    exact ⟨_, rfl, put_change hi hx hb [] [] b.cap (Nat.zero_le _)⟩

theorem copy_change (L : Lib) {w : World} (hi : Inv w) (d s : Nat) :
    (∀ p, w.value s = some p → w.value d ≠ none → ∃ w', w.copy L d s = some w' ∧ Changes w w' d (some p)) ∧
    (w.value s = none ∨ w.value d = none → w.copy L d s = none) := by
  unfold World.copy
  by_cases hds : d = s
  · subst hds
    rw [if_pos rfl]
    refine ⟨fun p hp _ => ⟨w, by rw [hp]; rfl, hi, rfl, hp, fun k _ => Same.refl w k⟩, fun h => ?_⟩
    rcases h with h | h <;> rw [h] <;> rfl
  · rw [if_neg hds]
    cases hx : w.obj d with
    | none =>
      refine ⟨fun p _ h => absurd (dead_obj hi hx) h, fun _ => ?_⟩
      cases w.value s <;> rfl
    | some x =>
      obtain ⟨b, hb, hv, hf⟩ := alive_obj hi hx
      refine ⟨fun p hp _ => ?_, fun h => ?_⟩
      · rw [hp]
        simp only [hb]
        refine ⟨_, rfl, put_change hi hx hb p.value p.segments _ ?_⟩
        split <;> omega
      · rcases h with h | h
        · rw [h]
        · rw [hv] at h; cases h

theorem move_change (L : Lib) {w : World} (hi : Inv w) (d s : Nat) :
    (∀ p, w.value s = some p → w.value d ≠ none → d ≠ s → ∃ w' q, w.move L d s = some w' ∧ Inv w' ∧
      w'.objs.length = w.objs.length ∧ w'.value d = some p ∧ w'.value s = some q ∧ Left L.empties p q ∧
      ∀ k, k ≠ d → k ≠ s → Same w w' k) ∧
    (w.value s = none ∨ w.value d = none ∨ d = s → w.move L d s = none) := by
  unfold World.move
  by_cases hds : d = s
  · rw [if_pos hds]
    exact ⟨fun _ _ _ h => absurd hds h, fun _ => rfl⟩
  · rw [if_neg hds]
    cases hy : w.obj s with
    | none =>
      refine ⟨(fun p hp => by rw [dead_obj hi hy] at hp; cases hp), fun _ => ?_⟩
      cases w.obj d <;> rfl
    | some y =>
      cases hx : w.obj d with
      | none => exact ⟨fun p _ h => absurd (dead_obj hi hx) h, fun _ => rfl⟩
      | some x =>
        obtain ⟨b, hb, hv, hf⟩ := alive_obj hi hx
        obtain ⟨c, hc, hv', hf'⟩ := alive_obj hi hy
        refine ⟨fun p hp _ _ => ?_, fun h => ?_⟩
        · rw [hv'] at hp
          cases hp
          simp only [hb, hc]
          by_cases hh : y.arr = y.home
          · rw [if_pos hh]
            have ch := put_change hi hx hb y.text c.elems
              (if c.elems.length ≤ b.cap then b.cap else max c.elems.length (L.more b.cap c.elems.length)) (by split <;> omega)
            have same := ch.others s (Ne.symm hds)
            have hy1 := same.obj.trans hy
            have hc1 := (same.arr y hy).trans hc
            have ch2 := put_change ch.inv hy1 hc1 [] (if L.empties then [] else c.elems) c.cap (by split <;> simp [hf'])
            refine ⟨_, _, rfl, ch2.inv, ch2.count.trans ch.count, ?_, ch2.value, ?_, fun k h1 h2 => (ch.others k h1).trans (ch2.others k h2)⟩
            · rw [(ch2.others d hds).value]; exact ch.value
            · obtain ⟨f, hf1, hf2, -⟩ := hi.home hy
              rw [← hh, hc] at hf1
              cases hf1
              unfold Left
              cases L.empties with
              | true => exact .inl rfl
              | false => exact .inr ⟨rfl, by simp only; omega, rfl⟩
          · rw [if_neg hh]
            obtain ⟨h1, h2, h3, h4, h5⟩ := steal_change hi hds hx hy hb hc hh rfl rfl
            exact ⟨_, _, rfl, h1, h2, h3, h4, .inl rfl, h5⟩
        · rcases h with h | h | h
          · rw [hv'] at h; cases h
          · rw [hv] at h; cases h
          · exact absurd h hds

end Verif.Path
