import Verif.BinaryRW.Alloc
import Verif.BinaryRW.Props
/-
Lemmas for C133: the memory that the binary reader asks for.
-/
namespace Verif.BinaryRW
open Spec

/-! ### With memory, the result is that of the model without -/

/-- The outcome is the result, unless it is an exception; an exception needs an allocator that can fail. -/
def Agrees {σ α : Type} (never : Prop) (o : Out σ α) (r : Option (α × Cursor)) : Prop :=
  match o with
  | .ub => r = none
  | .threw _ _ _ => ¬ never
  | .ok v c _ => r = some (v, c)

theorem agrees_loop {σ α : Type} {never : Prop} {rd : Cursor → σ → Out σ α} {rd' : Cursor → Option (α × Cursor)}
    {put : σ → Option σ} {ins : List α → α → List α} (h : ∀ c s, Agrees never (rd c s) (rd' c))
    (hp : ∀ s, put s = none → ¬ never) (n : Nat) (acc : List α) (c : Cursor) (s : σ) :
    Agrees never (loopA rd put ins n acc c s) (readLoop rd' ins n acc c) := by
  induction n generalizing acc c s with
  | zero => rfl
  | succ n ih =>
    have h1 := h c s
    simp only [loopA, readLoop]
    cases hr : rd c s with
    | ub => rw [hr] at h1; simp only [Agrees] at h1 ⊢; rw [h1]
    | threw v c' s' => rw [hr] at h1; exact h1
    | ok v c' s' =>
      rw [hr] at h1
      simp only [Agrees] at h1
      rw [h1]
      dsimp only
      cases hq : put s' with
      | none => exact hp _ hq
      | some s'' =>
        dsimp only
        by_cases he : c'.err = true
        · rw [if_pos he, if_pos he]; rfl
        · rw [if_neg he, if_neg he]; exact ih _ _ _

theorem agrees_pair {σ α β : Type} {never : Prop} {d : α × β} {ra : Cursor → σ → Out σ α} {ra' : Cursor → Option (α × Cursor)}
    {rb : Cursor → σ → Out σ β} {rb' : Cursor → Option (β × Cursor)} (ha : ∀ c s, Agrees never (ra c s) (ra' c))
    (hb : ∀ c s, Agrees never (rb c s) (rb' c)) (c : Cursor) (s : σ) :
    Agrees never (pairA d ra rb c s) (readPair ra' rb' c) := by
  have h1 := ha c s
  simp only [pairA, readPair]
  cases hr : ra c s with
  | ub => rw [hr] at h1; simp only [Agrees] at h1 ⊢; rw [h1]
  | threw v c' s' => rw [hr] at h1; exact h1
  | ok v c' s' =>
    rw [hr] at h1
    simp only [Agrees] at h1
    rw [h1]
    have h2 := hb c' s'
    dsimp only
    cases hr2 : rb c' s' with
    | ub => rw [hr2] at h2; simp only [Agrees] at h2 ⊢; rw [h2]
    | threw v c' s' => rw [hr2] at h2; exact h2
    | ok v c' s' => rw [hr2] at h2; simp only [Agrees] at h2 ⊢; rw [h2]

theorem agrees_guard {σ : Type} {M : Memory σ} {never : Prop} {t : Ty}
    (ih : ∀ old c s, Agrees never (readA M t old c s) (readInto t old c)) (c : Cursor) (s : σ) :
    Agrees never (if c.err then .ok (default t) c s else readA M t (default t) c s)
      (if c.err then .some (default t, c) else readInto t (default t) c) := by
  by_cases he : c.err = true
  · rw [if_pos he, if_pos he]; rfl
  · rw [if_neg he, if_neg he]; exact ih _ _ _

theorem agrees_alt {σ : Type} {M : Memory σ} {never : Prop} : ∀ (ts : List Ty)
    (_ : ∀ t ∈ ts, ∀ old c s, Agrees never (readA M t old c s) (readInto t old c)) (old : Val) (base i : Nat) (c : Cursor) (s : σ),
    Agrees never (readAltA M ts old base i c s) (readAlt ts old base i c)
  | [], _, _, _, _, _, _ => by simp only [readAltA, readAlt]; rfl
  | t :: ts, ih, old, base, i, c, s => by
    simp only [readAltA, readAlt]
    by_cases h0 : i = 0
    · rw [if_pos h0, if_pos h0]
      have h1 := agrees_guard (ih t (List.mem_cons_self ..)) c s
      generalize (if c.err = true then Out.ok (default t) c s else readA M t (default t) c s) = o at h1
      generalize (if c.err = true then some (default t, c) else readInto t (default t) c) = r at h1
      cases o with
      | ub => simp only [Agrees] at h1 ⊢; rw [h1]
      | threw v c' s' => exact h1
      | ok v c' s' =>
        simp only [Agrees] at h1
        rw [h1]
        dsimp only
        split <;> rfl
    · rw [if_neg h0, if_neg h0]
      exact agrees_alt ts (fun u hu => ih u (List.mem_cons_of_mem _ hu)) ..

theorem agrees_read {σ : Type} (M : Memory σ) {never : Prop} (hM : ∀ s n, M.alloc s n = none → ¬ never) (t : Ty) :
    ∀ old c s, Agrees never (readA M t old c s) (readInto t old c) := by
  induction t using Ty.ind with
  | hscalar n =>
    intro old c s
    cases old <;> simp only [readA, readInto, Agrees]
    rcases c.readImpl n with _ | ⟨_ | b, c'⟩ <;> rfl
  | hstr =>
    intro old c s
    cases old <;> simp only [readA, readInto, Agrees]
    rcases c.readUInt 4 with _ | ⟨size, c1⟩ <;> dsimp only
    by_cases h0 : size = 0
    · simp only [h0, if_true]
    · simp only [h0, if_false]
      cases hq : M.alloc s (size + 1) with
      | none => exact hM _ _ hq
      | some s1 =>
        dsimp only
        rcases c1.readImpl size with _ | ⟨b, c2⟩ <;> rfl
  | hvec t ih =>
    intro old c s
    cases old <;> try (simp only [readA, readInto, Agrees]; done)
    rename_i l
    rw [readA.eq_def, readInto.eq_def]
    dsimp only
    rcases c.readUInt 4 with _ | ⟨size, c1⟩ <;> dsimp only
    · rfl
    · cases hq : (if size = 0 then some s else M.alloc s (size * M.size t)) with
      | none =>
        by_cases h0 : size = 0
        · rw [if_pos h0] at hq; cases hq
        · rw [if_neg h0] at hq; exact hM _ _ hq
      | some s1 =>
        have hloop := agrees_loop (put := some) (ins := fun acc v => acc ++ [v]) (agrees_guard ih) (by simp) size [] c1 s1
        cases t with
        | scalar n =>
          dsimp only
          by_cases h0 : size = 0
          · simp only [h0, if_true]; rfl
          · simp only [h0, if_false]
            rcases c1.readImpl (size * n) with _ | ⟨b, c2⟩ <;> rfl
        | _ =>
          simp only [Agrees] at hloop ⊢
          split at hloop
          · rename_i h1; rw [h1, hloop]
          · rename_i h1; rw [h1]; exact hloop
          · rename_i h1; rw [h1, hloop]
  | hmap lt k v ihk ihv =>
    intro old c s
    cases old <;> simp only [readA, readInto, Agrees]
    rcases c.readUInt 4 with _ | ⟨size, c1⟩ <;> dsimp only
    have hloop := agrees_loop (put := fun s => M.alloc s (M.mapNode k v)) (ins := insertSorted (fun a b => lt a.1 b.1))
      (agrees_pair (d := (default k, default v)) (agrees_guard ihk) (agrees_guard ihv)) (fun s => hM s _) size [] c1 s
    simp only [Agrees] at hloop
    split at hloop
    · rename_i h1; rw [h1, hloop]
    · rename_i h1; rw [h1]; exact hloop
    · rename_i h1; rw [h1, hloop]
  | hset lt t ih =>
    intro old c s
    cases old <;> simp only [readA, readInto, Agrees]
    rcases c.readUInt 4 with _ | ⟨size, c1⟩ <;> dsimp only
    have hloop := agrees_loop (put := fun s => M.alloc s (M.setNode t)) (ins := insertSorted lt)
      (agrees_guard ih) (fun s => hM s _) size [] c1 s
    simp only [Agrees] at hloop
    split at hloop
    · rename_i h1; rw [h1, hloop]
    · rename_i h1; rw [h1]; exact hloop
    · rename_i h1; rw [h1, hloop]
  | hopt t ih =>
    intro old c s
    simp only [readA, readInto, Agrees]
    rcases c.readUInt 1 with _ | ⟨flag, c1⟩ <;> dsimp only
    by_cases h0 : (!c1.err && flag != 0) = true
    · rw [if_pos h0, if_pos h0]
      have h1 := agrees_guard ih c1 s
      generalize (if c1.err = true then Out.ok (default t) c1 s else readA M t (default t) c1 s) = o at h1
      generalize (if c1.err = true then some (default t, c1) else readInto t (default t) c1) = r at h1
      cases o with
      | ub => simp only [Agrees] at h1 ⊢; rw [h1]
      | threw v c' s' => exact h1
      | ok v c' s' => simp only [Agrees] at h1 ⊢; rw [h1]
    · rw [if_neg h0, if_neg h0]
  | hpair a b iha ihb =>
    intro old c s
    cases old <;> simp only [readA, readInto, Agrees]
    rename_i x y
    by_cases h0 : (!c.err) = true
    · rw [if_pos h0, if_pos h0]
      have h1 := iha x c s
      generalize readA M a x c s = o at h1
      cases o with
      | ub => simp only [Agrees] at h1 ⊢; rw [h1]
      | threw v c' s' => exact h1
      | ok v c' s' =>
        simp only [Agrees] at h1
        rw [h1]
        dsimp only
        by_cases h2 : (!c'.err) = true
        · rw [if_pos h2, if_pos h2]
          have h3 := ihb y c' s'
          generalize readA M b y c' s' = o at h3
          cases o with
          | ub => simp only [Agrees] at h3 ⊢; rw [h3]
          | threw v c' s' => exact h3
          | ok v c' s' => simp only [Agrees] at h3 ⊢; rw [h3]
        · rw [if_neg h2, if_neg h2]
    · rw [if_neg h0, if_neg h0]
  | hvariant ts ih =>
    intro old c s
    simp only [readA, readInto]
    rcases c.readUInt 1 with _ | ⟨index, c1⟩ <;> dsimp only
    · rfl
    · by_cases h0 : (!c1.err) = true
      · rw [if_pos h0, if_pos h0]
        exact agrees_alt ts ih ..
      · rw [if_neg h0, if_neg h0]; rfl

/-! ### What is asked for -/

mutual
/-- Every single request made for a value of this type costs at most `W`; scalars have a size. -/
def Cheap {σ : Type} (M : Memory σ) (w : Nat → Nat) (W : Nat) : Ty → Prop
  | .scalar n => 0 < n
  | .str => ∀ k, k < 2 ^ 32 → w (k + 1) ≤ W
  | .vec t => (∀ k, k < 2 ^ 32 → w (k * M.size t) ≤ W) ∧ Cheap M w W t
  | .map _ k v => w (M.mapNode k v) ≤ W ∧ Cheap M w W k ∧ Cheap M w W v
  | .set _ t => w (M.setNode t) ≤ W ∧ Cheap M w W t
  | .opt t => Cheap M w W t
  | .pair a b => Cheap M w W a ∧ Cheap M w W b
  | .variant ts => AllCheap M w W ts
def AllCheap {σ : Type} (M : Memory σ) (w : Nat → Nat) (W : Nat) : List Ty → Prop
  | [] => True
  | t :: ts => Cheap M w W t ∧ AllCheap M w W ts
end

theorem allCheap_mem {σ : Type} {M : Memory σ} {w : Nat → Nat} {W : Nat} : ∀ {ts : List Ty}, AllCheap M w W ts →
    ∀ t ∈ ts, Cheap M w W t
  | _ :: _, h, t, ht => by
    simp only [AllCheap] at h
    rcases List.mem_cons.1 ht with rfl | ht
    · exact h.1
    · exact allCheap_mem h.2 t ht

/-- What holds after reading: the destination satisfies `P`, the cursor moved forward within the same buffer, and what was paid
(`m`) is at most `W` for every byte passed; `e`: an allowance on top of that if there was an error; without an error, a
reserve of `r` is left. -/
def Paid {σ α : Type} (m : σ → Nat) (W e r : Nat) (c : Cursor) (s : σ) (P : α → Prop) : Out σ α → Prop
  | .ub => False
  | .threw v c' s' => P v ∧ c'.buf = c.buf ∧ c.pos ≤ c'.pos ∧ c'.pos ≤ c.buf.length ∧ m s' + W * c.pos ≤ m s + W * c'.pos
  | .ok v c' s' => P v ∧ c'.buf = c.buf ∧ c.pos ≤ c'.pos ∧ c'.pos ≤ c.buf.length ∧
      m s' + W * c.pos ≤ m s + W * c'.pos + e ∧
      (c'.err = false → c.err = false ∧ m s' + r + W * c.pos ≤ m s + W * c'.pos)

theorem InBuf.of {c c' : Cursor} (h : InBuf c) (hb : c'.buf = c.buf) (hl : c'.pos ≤ c.buf.length) : InBuf c' := by
  unfold InBuf at *; rw [hb]; exact ⟨hl, h.2⟩

theorem readImpl_post {c : Cursor} (h : InBuf c) (n : Nat) : ∃ r c', c.readImpl n = some (r, c') ∧ c'.buf = c.buf ∧
    c.pos ≤ c'.pos ∧ c'.pos ≤ c.buf.length ∧ (∀ b, r = some b → b.length = n) ∧ (r = none → c'.err = true) ∧
    (c'.err = false → c.err = false ∧ c'.pos = c.pos + n) := by
  have hp := h.1
  cases he : c.err with
  | true => exact ⟨_, _, readImpl_err he n, rfl, Nat.le_refl _, hp, nofun, fun _ => he, by rw [he]; nofun⟩
  | false =>
    rw [readImpl_eq ⟨h.1, h.2⟩ he]
    by_cases hn : c.pos + n ≤ c.buf.length
    · rw [if_pos hn]
      refine ⟨_, _, rfl, rfl, Nat.le_add_right .., hn, ?_, nofun, fun _ => ⟨rfl, rfl⟩⟩
      intro b hb
      cases hb
      rw [List.length_take, List.length_drop]; omega
    · rw [if_neg hn]
      exact ⟨_, _, rfl, rfl, Nat.le_refl _, hp, nofun, fun _ => rfl, nofun⟩

theorem fromLE_lt (b : List Byte) : fromLE b < 256 ^ b.length := by
  induction b with
  | nil => simp [fromLE]
  | cons x b ih =>
    have := x.isLt
    simp only [fromLE, List.length_cons, Nat.pow_succ]
    omega

theorem readUInt_post {c : Cursor} (h : InBuf c) (k : Nat) : ∃ n c', c.readUInt k = some (n, c') ∧ c'.buf = c.buf ∧
    c.pos ≤ c'.pos ∧ c'.pos ≤ c.buf.length ∧ n < 256 ^ k ∧ (c'.err = true → n = 0) ∧
    (c'.err = false → c.err = false ∧ c'.pos = c.pos + k) := by
  have hp := h.1
  obtain ⟨buf, pos, err⟩ := c
  simp only at hp
  have hz : 0 < 256 ^ k := Nat.pow_pos (by omega)
  cases err with
  | true => exact ⟨_, _, readUInt_err .., rfl, Nat.le_refl _, hp, hz, fun _ => rfl, nofun⟩
  | false =>
    rw [readUInt_eq hp h.2]
    cases hn : num? k (buf.drop pos) with
    | none => exact ⟨_, _, rfl, rfl, Nat.le_refl _, hp, hz, fun _ => rfl, nofun⟩
    | some q =>
      obtain ⟨v, rest⟩ := q
      simp only [num?, take?, List.length_drop] at hn
      by_cases hk : k ≤ buf.length - pos
      · rw [if_pos hk] at hn
        simp only [Option.map_some, Option.some.injEq, Prod.mk.injEq] at hn
        refine ⟨_, _, rfl, rfl, Nat.le_add_right .., by dsimp only; omega, ?_, nofun, fun _ => ⟨rfl, rfl⟩⟩
        rw [← hn.1, foldr_fromLE]
        have h1 := fromLE_lt ((buf.drop pos).take k)
        rw [List.length_take, List.length_drop, Nat.min_eq_left hk] at h1
        exact h1
      · rw [if_neg hk] at hn; simp at hn

theorem paid_loop {σ α : Type} {m : σ → Nat} {W : Nat} {rd : Cursor → σ → Out σ α} {put : σ → Option σ}
    {ins : List α → α → List α} {P : α → Prop} {Q : List α → Prop} (h : ∀ c s, InBuf c → Paid m W 0 W c s P (rd c s))
    (hp : ∀ s s', put s = some s' → m s' ≤ m s + W) (h0 : Q []) (hq : ∀ acc v, Q acc → P v → Q (ins acc v))
    (n : Nat) (acc : List α) (ha : Q acc) (c : Cursor) (hc : InBuf c) (s : σ) :
    Paid m W W 0 c s Q (loopA rd put ins n acc c s) := by
  induction n generalizing acc c s with
  | zero =>
    have := hc.1
    rw [loopA]
    exact ⟨ha, rfl, Nat.le_refl _, hc.1, by omega, fun h => ⟨h, by omega⟩⟩
  | succ n ih =>
    have h1 := h c s hc
    simp only [loopA]
    cases hr : rd c s with
    | ub => rw [hr] at h1; exact h1
    | threw v c' s' =>
      rw [hr] at h1
      obtain ⟨_, h2⟩ := h1
      exact ⟨ha, h2⟩
    | ok v c' s' =>
      rw [hr] at h1
      obtain ⟨hv, hb, hl, hl', hm, he⟩ := h1
      dsimp only
      cases hs : put s' with
      | none => exact ⟨ha, hb, hl, hl', by omega⟩
      | some s'' =>
        have hm' := hp _ _ hs
        dsimp only
        by_cases hce : c'.err = true
        · rw [if_pos hce]
          exact ⟨h0, hb, hl, hl', by omega, fun h => by rw [hce] at h; cases h⟩
        · rw [if_neg hce]
          have hcf : c'.err = false := by simpa using hce
          obtain ⟨he1, he2⟩ := he hcf
          have h3 := ih (ins acc v) (hq _ _ ha hv) c' (hc.of hb hl') s''
          generalize loopA rd put ins n (ins acc v) c' s'' = o at h3
          cases o with
          | ub => exact h3
          | threw l c3 s3 =>
            obtain ⟨g1, g2, g3, g4, g5⟩ := h3
            exact ⟨g1, g2.trans hb, by omega, by rw [hb] at g4; exact g4, by omega⟩
          | ok l c3 s3 =>
            obtain ⟨g1, g2, g3, g4, g5, g6⟩ := h3
            refine ⟨g1, g2.trans hb, by omega, by rw [hb] at g4; exact g4, by omega, fun hh => ⟨he1, ?_⟩⟩
            have := (g6 hh).2
            omega

theorem paid_guard {σ : Type} {M : Memory σ} {m : σ → Nat} {W : Nat} {t : Ty} (ht : TyOK t)
    (ih : ∀ old c s, HasTy t old → InBuf c → Paid m W 0 W c s (HasTy t) (readA M t old c s)) (c : Cursor) (s : σ) (hc : InBuf c) :
    Paid m W 0 W c s (HasTy t) (if c.err then .ok (default t) c s else readA M t (default t) c s) := by
  by_cases he : c.err = true
  · rw [if_pos he]
    exact ⟨default_hasTy t ht, rfl, Nat.le_refl _, hc.1, by omega, fun h => by rw [he] at h; cases h⟩
  · rw [if_neg he]; exact ih _ _ _ (default_hasTy t ht) hc

theorem paid_pair {σ α β : Type} {m : σ → Nat} {W : Nat} {d : α × β} {ra : Cursor → σ → Out σ α} {rb : Cursor → σ → Out σ β}
    {P : α → Prop} {Q : β → Prop} (hd : P d.1 ∧ Q d.2) (ha : ∀ c s, InBuf c → Paid m W 0 W c s P (ra c s))
    (hb : ∀ c s, InBuf c → Paid m W 0 W c s Q (rb c s)) (c : Cursor) (s : σ) (hc : InBuf c) :
    Paid m W 0 W c s (fun e => P e.1 ∧ Q e.2) (pairA d ra rb c s) := by
  have h1 := ha c s hc
  simp only [pairA]
  generalize ra c s = o at h1
  cases o with
  | ub => exact h1
  | threw v c' s' => exact ⟨hd, h1.2⟩
  | ok v c' s' =>
    obtain ⟨hv, hb1, hl, hl', hm, he⟩ := h1
    have h2 := hb c' s' (hc.of hb1 hl')
    dsimp only
    generalize rb c' s' = o at h2
    cases o with
    | ub => exact h2
    | threw w c3 s3 =>
      obtain ⟨g1, g2, g3, g4, g5⟩ := h2
      exact ⟨hd, g2.trans hb1, by omega, by rw [hb1] at g4; exact g4, by omega⟩
    | ok w c3 s3 =>
      obtain ⟨g1, g2, g3, g4, g5, g6⟩ := h2
      refine ⟨⟨hv, g1⟩, g2.trans hb1, by omega, by rw [hb1] at g4; exact g4, by omega, fun hh => ?_⟩
      have g7 := g6 hh
      have he' := he g7.1
      exact ⟨he'.1, by omega⟩

theorem paid_alt {σ : Type} {M : Memory σ} {m : σ → Nat} {W : Nat} {P : Val → Prop} : ∀ (ts : List Ty)
    (_ : ∀ t ∈ ts, TyOK t ∧ ∀ old c s, HasTy t old → InBuf c → Paid m W 0 W c s (HasTy t) (readA M t old c s))
    (old : Val) (_ : P old) (base i : Nat) (_ : ∀ t v, ts[i]? = some t → HasTy t v → P (.var (base + i) v))
    (c : Cursor) (_ : InBuf c) (s : σ), Paid m W 0 W c s P (readAltA M ts old base i c s)
  | [], _, old, ho, _, _, _, c, hc, s => by
    simp only [readAltA, Paid]
    exact ⟨ho, rfl, Nat.le_refl _, hc.1, by simp [Cursor.notifyError], by simp [Cursor.notifyError]⟩
  | t :: ts, ih, old, ho, base, i, hP, c, hc, s => by
    simp only [readAltA]
    by_cases h0 : i = 0
    · subst h0
      rw [if_pos rfl]
      have h1 := ih t (List.mem_cons_self ..)
      have h2 := paid_guard h1.1 h1.2 c s hc
      generalize (if c.err = true then Out.ok (default t) c s else readA M t (default t) c s) = o at h2
      cases o with
      | ub => exact h2
      | threw v c' s' => exact ⟨ho, h2.2⟩
      | ok v c' s' =>
        dsimp only
        split
        · exact ⟨hP t v rfl h2.1, h2.2⟩
        · exact ⟨ho, h2.2⟩
    · rw [if_neg h0]
      refine paid_alt ts (fun u hu => ih u (List.mem_cons_of_mem _ hu)) old ho (base + 1) (i - 1) ?_ c hc s
      intro u v hu hv
      have h3 : base + 1 + (i - 1) = base + i := by omega
      rw [h3]
      refine hP u v ?_ hv
      obtain ⟨j, rfl⟩ : ∃ j, i = j + 1 := ⟨i - 1, by omega⟩
      exact hu

/-- After the count of a container, of `k` bytes: what is paid from there on, and something (`x`) between them. -/
theorem Paid.lift {σ α : Type} {m : σ → Nat} {W e e' r x : Nat} {c c1 : Cursor} {s s1 : σ} {P : α → Prop} {o : Out σ α}
    (h : Paid m W e r c1 s1 P o) (hb : c1.buf = c.buf) (hl : c.pos ≤ c1.pos) (he : c1.err = false → c.err = false)
    (hx : m s1 ≤ m s + x) (hd : W * c.pos + x + (e - e') + (W - r) ≤ W * c1.pos) : Paid m W e' W c s P o := by
  cases o with
  | ub => exact h
  | threw v c' s' =>
    obtain ⟨g1, g2, g3, g4, g5⟩ := h
    exact ⟨g1, g2.trans hb, by omega, by rw [hb] at g4; exact g4, by omega⟩
  | ok v c' s' =>
    obtain ⟨g1, g2, g3, g4, g5, g6⟩ := h
    refine ⟨g1, g2.trans hb, by omega, by rw [hb] at g4; exact g4, by omega, fun hh => ?_⟩
    have := g6 hh
    exact ⟨he this.1, by omega⟩

theorem paid_read {σ : Type} (M : Memory σ) {m : σ → Nat} {w : Nat → Nat} {W : Nat}
    (hM : ∀ s n s', M.alloc s n = some s' → m s' ≤ m s + w n) (t : Ty) (hk : TyOK t) (hw : Cheap M w W t) :
    ∀ old c s, HasTy t old → InBuf c → Paid m W 0 W c s (HasTy t) (readA M t old c s) := by
  induction t using Ty.ind with
  | hscalar n =>
    intro old c s ho hc
    cases old <;> simp only [HasTy] at ho
    rename_i b0
    obtain ⟨r, c', h1, h2, h3, h4, h5, h6, h7⟩ := readImpl_post hc n
    simp only [Cheap] at hw
    simp only [readA, h1]
    have hpos := Nat.mul_le_mul_left W h3
    have key : ∀ v, HasTy (.scalar n) v → Paid m W 0 W c s (HasTy (.scalar n)) (.ok v c' s) := by
      intro v hv
      refine ⟨hv, h2, h3, h4, by omega, fun h => ⟨(h7 h).1, ?_⟩⟩
      have h8 := Nat.mul_le_mul_left W (show c.pos + 1 ≤ c'.pos by have := (h7 h).2; omega)
      rw [Nat.mul_add] at h8
      omega
    cases r with
    | none => exact key _ ho
    | some b => exact key _ (h5 b rfl)
  | hstr =>
    intro old c s ho hc
    cases old <;> simp only [HasTy] at ho
    obtain ⟨size, c1, h1, h2, h3, h4, h5, h6, h7⟩ := readUInt_post hc 4
    simp only [readA, h1]
    simp only [Cheap] at hw
    have hpos := Nat.mul_le_mul_left W h3
    by_cases h0 : size = 0
    · rw [if_pos h0]
      refine ⟨trivial, h2, h3, h4, by omega, fun h => ⟨(h7 h).1, ?_⟩⟩
      rw [(h7 h).2, Nat.mul_add]
      omega
    · rw [if_neg h0]
      have he1 : c1.err = false := by
        cases h : c1.err with
        | true => exact absurd (h6 h) h0
        | false => rfl
      have hp1 := (h7 he1).2
      have hp2 : W * c1.pos = W * c.pos + W * 4 := by rw [hp1, Nat.mul_add]
      cases hs : M.alloc s (size + 1) with
      | none => exact ⟨trivial, h2, h3, h4, by omega⟩
      | some s1 =>
        have hs' := hM _ _ _ hs
        have hw' := hw size (by omega)
        obtain ⟨b, c2, g1, g2, g3, g4, g5, g6, g7⟩ := readImpl_post (hc.of h2 h4) size
        dsimp only
        rw [g1]
        have hpos2 := Nat.mul_le_mul_left W g3
        refine ⟨trivial, g2.trans h2, by omega, by rw [h2] at g4; exact g4, by omega, fun h => ⟨(h7 he1).1, by omega⟩⟩
  | hvec t ih =>
    intro old c s ho hc
    simp only [Cheap] at hw
    simp only [TyOK] at hk
    cases old <;> (try simp only [HasTy] at ho)
    rename_i l0
    rw [readA.eq_def]
    dsimp only
    obtain ⟨size, c1, h1, h2, h3, h4, h5, h6, h7⟩ := readUInt_post hc 4
    rw [h1]
    dsimp only
    have hpos := Nat.mul_le_mul_left W h3
    have hnil : HasTy (.vec t) (.vec []) := by simp [HasTy]
    by_cases h0 : size = 0
    · subst h0
      rw [if_pos rfl]
      have key : Paid m W 0 W c s (HasTy (.vec t)) (.ok (.vec []) c1 s) := by
        refine ⟨hnil, h2, h3, h4, by omega, fun h => ⟨(h7 h).1, ?_⟩⟩
        rw [(h7 h).2, Nat.mul_add]
        omega
      cases t <;> exact key
    · rw [if_neg h0]
      have he1 : c1.err = false := by
        cases h : c1.err with
        | true => exact absurd (h6 h) h0
        | false => rfl
      have hp1 := (h7 he1).2
      have hp2 : W * c1.pos = W * c.pos + W * 4 := by rw [hp1, Nat.mul_add]
      cases hs : M.alloc s (size * M.size t) with
      | none => exact ⟨hnil, h2, h3, h4, by omega⟩
      | some s1 =>
        have hs' := hM _ _ _ hs
        have hw' := hw.1 size (by omega)
        have hloop := paid_loop (put := some) (ins := fun acc v => acc ++ [v]) (Q := fun l => ∀ v ∈ l, HasTy t v)
          (paid_guard hk (ih hk hw.2)) (by intro s s' h; cases h; omega) (by simp) (by
            intro acc v ha hv x hx
            rcases List.mem_append.1 hx with hx | hx
            · exact ha x hx
            · rw [List.mem_singleton.1 hx]; exact hv) size [] (by simp) c1 (hc.of h2 h4) s1
        have hloop := hloop.lift (e' := 0) (s := s) (x := W) h2 h3 (fun h => (h7 h).1) (by omega) (by omega)
        cases t with
        | scalar n =>
          dsimp only
          rw [if_neg h0]
          obtain ⟨b, c2, g1, g2, g3, g4, g5, g6, g7⟩ := readImpl_post (hc.of h2 h4) (size * n)
          rw [g1]
          have hpos2 := Nat.mul_le_mul_left W g3
          refine ⟨?_, g2.trans h2, by omega, by rw [h2] at g4; exact g4, by omega, fun h => ⟨(h7 he1).1, by omega⟩⟩
          split
          · exact hnil
          · rename_i hce
            cases b with
            | none => exact absurd (g6 rfl) hce
            | some b =>
              rw [HasTy]
              exact chunks_typed _ _ _ (g5 b rfl)
        | _ =>
          dsimp only
          revert hloop
          generalize loopA _ _ _ _ _ _ _ = o
          intro hloop
          cases o with
          | ub => exact hloop
          | threw v c' s' => exact ⟨by rw [HasTy]; exact hloop.1, hloop.2⟩
          | ok v c' s' => exact ⟨by rw [HasTy]; exact hloop.1, hloop.2⟩
  | hmap lt k v ihk ihv =>
    intro old c s ho hc
    simp only [Cheap] at hw
    simp only [TyOK] at hk
    cases old <;> simp only [HasTy] at ho
    simp only [readA]
    obtain ⟨size, c1, h1, h2, h3, h4, h5, h6, h7⟩ := readUInt_post hc 4
    rw [h1]
    dsimp only
    have hpos := Nat.mul_le_mul_left W h3
    by_cases h0 : size = 0
    · subst h0
      refine ⟨by simp [HasTy], h2, h3, h4, by omega, fun h => ⟨(h7 h).1, ?_⟩⟩
      rw [(h7 h).2, Nat.mul_add]
      omega
    · have he1 : c1.err = false := by
        cases h : c1.err with
        | true => exact absurd (h6 h) h0
        | false => rfl
      have hp1 := (h7 he1).2
      have hp2 : W * c1.pos = W * c.pos + W * 4 := by rw [hp1, Nat.mul_add]
      have hloop := paid_loop (put := fun s => M.alloc s (M.mapNode k v)) (ins := insertSorted (fun a b => lt a.1 b.1))
        (Q := fun l => l.Pairwise (fun a b : Val × Val => lt a.1 b.1 = true) ∧ ∀ e ∈ l, HasTy k e.1 ∧ HasTy v e.2)
        (paid_pair (d := (default k, default v)) ⟨default_hasTy k hk.2.1, default_hasTy v hk.2.2⟩
          (paid_guard hk.2.1 (ihk hk.2.1 hw.2.1)) (paid_guard hk.2.2 (ihv hk.2.2 hw.2.2)))
        (by intro s s' h; have := hM _ _ _ h; omega) (by simp) (by
          intro acc e ha hv
          refine ⟨insert_pairwise (lt := fun a b : Val × Val => lt a.1 b.1)
            (fun a b c h1 h2 => hk.1.2 a.1 b.1 c.1 h1 h2) acc e ha.1, ?_⟩
          intro x hx
          rcases insert_mem _ acc e x hx with rfl | hx
          · exact hv
          · exact ha.2 x hx) size [] (by simp) c1 (hc.of h2 h4) s
      have hloop := hloop.lift (e' := 0) (s := s) (x := 0) h2 h3 (fun h => (h7 h).1) (by omega) (by omega)
      revert hloop
      generalize loopA _ _ _ _ _ _ _ = o
      intro hloop
      cases o with
      | ub => exact hloop
      | threw v c' s' => exact ⟨by rw [HasTy]; exact hloop.1, hloop.2⟩
      | ok v c' s' => exact ⟨by rw [HasTy]; exact hloop.1, hloop.2⟩
  | hset lt t ih =>
    intro old c s ho hc
    simp only [Cheap] at hw
    simp only [TyOK] at hk
    cases old <;> simp only [HasTy] at ho
    simp only [readA]
    obtain ⟨size, c1, h1, h2, h3, h4, h5, h6, h7⟩ := readUInt_post hc 4
    rw [h1]
    dsimp only
    have hpos := Nat.mul_le_mul_left W h3
    by_cases h0 : size = 0
    · subst h0
      refine ⟨by simp [HasTy], h2, h3, h4, by omega, fun h => ⟨(h7 h).1, ?_⟩⟩
      rw [(h7 h).2, Nat.mul_add]
      omega
    · have he1 : c1.err = false := by
        cases h : c1.err with
        | true => exact absurd (h6 h) h0
        | false => rfl
      have hp1 := (h7 he1).2
      have hp2 : W * c1.pos = W * c.pos + W * 4 := by rw [hp1, Nat.mul_add]
      have hloop := paid_loop (put := fun s => M.alloc s (M.setNode t)) (ins := insertSorted lt)
        (Q := fun l => l.Pairwise (fun a b : Val => lt a b = true) ∧ ∀ e ∈ l, HasTy t e)
        (paid_guard hk.2 (ih hk.2 hw.2))
        (by intro s s' h; have := hM _ _ _ h; omega) (by simp) (by
          intro acc e ha hv
          refine ⟨insert_pairwise hk.1.2 acc e ha.1, ?_⟩
          intro x hx
          rcases insert_mem _ acc e x hx with rfl | hx
          · exact hv
          · exact ha.2 x hx) size [] (by simp) c1 (hc.of h2 h4) s
      have hloop := hloop.lift (e' := 0) (s := s) (x := 0) h2 h3 (fun h => (h7 h).1) (by omega) (by omega)
      revert hloop
      generalize loopA _ _ _ _ _ _ _ = o
      intro hloop
      cases o with
      | ub => exact hloop
      | threw v c' s' => exact ⟨by rw [HasTy]; exact hloop.1, hloop.2⟩
      | ok v c' s' => exact ⟨by rw [HasTy]; exact hloop.1, hloop.2⟩
  | hopt t ih =>
    intro old c s ho hc
    simp only [Cheap] at hw
    simp only [TyOK] at hk
    simp only [readA]
    obtain ⟨flag, c1, h1, h2, h3, h4, h5, h6, h7⟩ := readUInt_post hc 1
    rw [h1]
    dsimp only
    have hpos := Nat.mul_le_mul_left W h3
    have hp2 : c1.err = false → W * c1.pos = W * c.pos + W := fun h => by rw [(h7 h).2, Nat.mul_add, Nat.mul_one]
    split
    · have h8 := (paid_guard hk (ih hk hw) c1 s (hc.of h2 h4)).lift (e' := 0) (s := s) (x := 0) h2 h3
        (fun h => (h7 h).1) (by omega) (by omega)
      generalize (if c1.err = true then Out.ok (default t) c1 s else readA M t (default t) c1 s) = o at h8
      cases o with
      | ub => exact h8
      | threw v c' s' => exact ⟨ho, h8.2⟩
      | ok v c' s' => exact ⟨by rw [HasTy]; exact h8.1, h8.2⟩
    · refine ⟨by simp [HasTy], h2, h3, h4, by omega, fun h => ⟨(h7 h).1, ?_⟩⟩
      have := hp2 h
      omega
  | hpair a b iha ihb =>
    intro old c s ho hc
    simp only [Cheap] at hw
    simp only [TyOK] at hk
    cases old <;> simp only [HasTy] at ho
    rename_i x y
    simp only [readA]
    cases he : c.err with
    | true =>
      simp only [Bool.not_true, Bool.false_eq_true, if_false]
      exact ⟨by rw [HasTy]; exact ho, rfl, Nat.le_refl _, hc.1, by omega, fun h => by rw [he] at h; cases h⟩
    | false =>
      simp only [Bool.not_false, if_true]
      have h1 := iha hk.1 hw.1 x c s ho.1 hc
      generalize readA M a x c s = o at h1
      cases o with
      | ub => exact h1
      | threw v c' s' => exact ⟨by rw [HasTy]; exact ⟨h1.1, ho.2⟩, h1.2⟩
      | ok v c1 s1 =>
        obtain ⟨hv, hb1, hl, hl', hm, he'⟩ := h1
        dsimp only
        cases he1 : c1.err with
        | true =>
          simp only [Bool.not_true, Bool.false_eq_true, if_false]
          exact ⟨by rw [HasTy]; exact ⟨hv, ho.2⟩, hb1, hl, hl', hm, he'⟩
        | false =>
          simp only [Bool.not_false, if_true]
          have h2 := ihb hk.2 hw.2 y c1 s1 ho.2 (hc.of hb1 hl')
          generalize readA M b y c1 s1 = o at h2
          cases o with
          | ub => exact h2
          | threw w c3 s3 =>
            obtain ⟨g1, g2, g3, g4, g5⟩ := h2
            exact ⟨by rw [HasTy]; exact ⟨hv, g1⟩, g2.trans hb1, by omega, by rw [hb1] at g4; exact g4, by omega⟩
          | ok w c3 s3 =>
            obtain ⟨g1, g2, g3, g4, g5, g6⟩ := h2
            refine ⟨by rw [HasTy]; exact ⟨hv, g1⟩, g2.trans hb1, by omega, by rw [hb1] at g4; exact g4, by omega, fun hh => ?_⟩
            have g7 := g6 hh
            exact ⟨he, by omega⟩
  | hvariant ts ih =>
    intro old c s ho hc
    simp only [Cheap] at hw
    simp only [TyOK] at hk
    simp only [readA]
    obtain ⟨index, c1, h1, h2, h3, h4, h5, h6, h7⟩ := readUInt_post hc 1
    rw [h1]
    dsimp only
    have hpos := Nat.mul_le_mul_left W h3
    split
    · refine (paid_alt ts (fun t ht => ⟨allOK_mem hk.2 t ht, ih t ht (allOK_mem hk.2 t ht) (allCheap_mem hw t ht)⟩) old ho 0 index ?_ c1
        (hc.of h2 h4) s).lift (e' := 0) (s := s) (x := 0) h2 h3 (fun h => (h7 h).1) (by omega) (by omega)
      intro t v ht hv
      rw [HasTy, Nat.zero_add, hasAlt_eq]
      exact ⟨t, ht, hv⟩
    · rename_i hh
      refine ⟨ho, h2, h3, h4, by omega, fun h => ?_⟩
      rw [h] at hh; simp at hh

end Verif.BinaryRW
