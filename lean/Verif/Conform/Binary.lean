import Verif.BinaryRW.Model

/-
Checks of the model of `binary_rw` against /repo/tests/binary_rw_test.cpp: each `example`
evaluates the model on what the test does.  Tests of the model, not proofs of properties.
-/
namespace Verif.Conform.BinaryTest
open Verif.BinaryRW

mutual
/-- Values are compared as sequences of numbers. -/
def flat : Val → List Nat
  | .scalar b => 0 :: b.length :: b.map (·.toNat)
  | .str b => 1 :: b.length :: b.map (·.toNat)
  | .vec l => 2 :: l.length :: flatL l
  | .map l => 3 :: l.length :: flatP l
  | .set l => 4 :: l.length :: flatL l
  | .none => [5]
  | .some v => 6 :: flat v
  | .pair a b => 7 :: flat a ++ flat b
  | .var i v => 8 :: i :: flat v
def flatL : List Val → List Nat
  | [] => []
  | v :: l => flat v ++ flatL l
def flatP : List (Val × Val) → List Nat
  | [] => []
  | (a, b) :: l => flat a ++ flat b ++ flatP l
end

def same (a b : Val) : Bool := flat a = flat b

def bytes (s : String) : List Byte := s.toList.map fun c => BitVec.ofNat 8 c.toNat
def s (x : String) : Val := .str (bytes x)
def byte (n : Nat) : Val := .scalar (toLE 1 n)
/-- `int`, `little_int32_t` -/
def i32 (n : Nat) : Val := .scalar (toLE 4 n)
def i16 (n : Nat) : Val := .scalar (toLE 2 n)
def intT : Ty := .scalar 4
/-- Numbers of the unsigned value, strings lexicographically. -/
def lt (a b : Val) : Bool :=
  match a, b with
  | .scalar x, .scalar y => fromLE x < fromLE y
  | .str x, .str y => (x.map (·.toNat)) < (y.map (·.toNat))
  | _, _ => false

/-- `r.read<T>()` on a buffer: the value, `err()` and `left()`. -/
def read (buf : List Byte) (t : Ty) (v : Val) (err : Bool) (left : Nat) : Bool :=
  match (Cursor.mk buf 0 false).readNew t with
  | .some (v', c) => same v' v && c.err == err && c.left == left
  | .none => false
/-- Only `err()`. -/
def readErr (buf : List Byte) (t : Ty) : Bool :=
  match (Cursor.mk buf 0 false).readNew t with
  | .some (_, c) => c.err
  | .none => false
def readEmpty (buf : List Byte) (t : Ty) (v : Val) : Bool :=
  match (Cursor.mk buf 0 false).readNew t with
  | .some (v', c) => c.err && same v' v
  | .none => false

/-- binary_rw_test.cpp:40-77 -/
example : let r : Cursor := ⟨[], 0, false⟩
    r.left = 0 ∧ r.pos = 0 ∧ r.empty = true ∧ r.err = false ∧
    (r.peek 1 [7]).map (fun x => (x.2.2, x.2.1.err)) = .some (false, false) ∧
    (r.read (.scalar 1) (byte 7)).map (fun x => (x.2.2, x.2.1.err)) = .some (false, true) ∧
    r.notifyError.err = true ∧ (r.skip (-1)).map (·.err) = .some true ∧
    (r.skip 1).map (·.err) = .some true := by decide +kernel

/-- binary_rw_test.cpp:79-98; `big_uint16_t` and its like are their bytes. -/
example : let r : Cursor := ⟨[1, 2, 3, 4], 0, false⟩
    r.left = 4 ∧ (r.peek 1 []).map (fun x => (x.1, x.2.2)) = .some ([1], true) ∧
    (r.peek 2 []).map (·.1) = .some [1, 2] ∧ (r.peek 4 []).map (·.1) = .some [1, 2, 3, 4] ∧
    (match r.readNew (.scalar 1) with
     | .some (v, r) => same v (byte 1) = true ∧ r.pos = 1 ∧ r.err = false ∧
        (r.peek 1 []).map (·.1) = .some [2] ∧ (r.peek 2 []).map (·.1) = .some [2, 3] ∧ r.left = 3 ∧
        (match r.readNew (.scalar 3) with
         | .some (v, r) => same v (.scalar [2, 3, 4]) = true ∧ r.left = 0 ∧ r.pos = 4
         | .none => False)
     | .none => False) := by
  refine ⟨by decide +kernel, by decide +kernel, by decide +kernel, by decide +kernel, ?_⟩
  exact ⟨by decide +kernel, by decide +kernel, by decide +kernel, by decide +kernel, by decide +kernel,
    by decide +kernel, by decide +kernel, by decide +kernel, by decide +kernel⟩

/-- binary_rw_test.cpp:101-140 -/
example : readEmpty [] (.map lt intT .str) (.map []) = true ∧
    readEmpty [3, 0, 0, 0, 0, 0, 0, 0, 1, 0, 0, 0, 64, 0] (.map lt intT .str) (.map []) = true ∧
    read [2, 0, 0, 0, 2, 100, 0, 0, 0, 1, 10, 0, 0, 0] (.map lt (.scalar 1) intT)
      (.map [(byte 1, i32 10), (byte 2, i32 100)]) false 0 = true := by decide +kernel

/-- binary_rw_test.cpp:142-178 -/
example : readEmpty [] (.set lt intT) (.set []) = true ∧
    readEmpty [3, 0, 0, 0, 1, 2] (.set lt .str) (.set []) = true ∧
    read [3, 0, 0, 0, 1, 2, 3] (.set lt (.scalar 1)) (.set [byte 1, byte 2, byte 3]) false 0 = true := by
  decide +kernel

/-- binary_rw_test.cpp:180-222 -/
example : readErr [] (.opt intT) = true ∧ read [0] (.opt intT) .none false 0 = true ∧
    readErr [1, 0] (.opt intT) = true ∧
    read [1, 1, 0, 0, 0, 33] (.opt .str) (.some (s "!")) false 0 = true := by decide +kernel

/-- binary_rw_test.cpp:224-263; the array of the second has 16 bytes, the last being 0. -/
example : readEmpty [] .str (s "") = true ∧
    readEmpty ([13, 0, 0, 0] ++ bytes "Hello, worl" ++ [0]) .str (s "") = true ∧
    read ([13, 0, 0, 0] ++ bytes "Hello, world!") .str (s "Hello, world!") false 0 = true := by
  decide +kernel

def variant : Ty := .variant [intT, .str]

/-- binary_rw_test.cpp:265-327 -/
example : readErr [] variant = true ∧ readErr [3] variant = true ∧
    read [0, 19, 0, 0, 0] variant (.var 0 (i32 19)) false 0 = true ∧ readErr [0, 19, 0] variant = true ∧
    read ([1, 19, 0, 0, 0] ++ bytes "Hello, world!      ") variant
      (.var 1 (s "Hello, world!      ")) false 0 = true := by decide +kernel

/-- binary_rw_test.cpp:329-388 -/
example : readEmpty [] (.vec intT) (.vec []) = true ∧
    readEmpty [3, 0, 0, 0, 1, 2] (.vec .str) (.vec []) = true ∧
    readEmpty [3, 0, 0, 0, 1, 2] (.vec (.scalar 1)) (.vec []) = true ∧
    read [3, 0, 0, 0, 1, 2, 3, 4] (.vec (.scalar 1)) (.vec [byte 1, byte 2, byte 3]) false 1 = true ∧
    read [2, 0, 0, 0, 1, 0, 2, 0] (.vec (.scalar 2)) (.vec [i16 1, i16 2]) false 0 = true := by
  decide +kernel

/-! ### The writer -/

/-- `w << v...` on a buffer: `err()`, `pos()`, `left()`. -/
def wrote (c : Cursor) : List (Ty × Val) → Option Cursor
  | [] => .some c
  | (t, v) :: l =>
    match write t v c with
    | .none => .none
    | .some c' => wrote c' l
def fresh (n : Nat) : Cursor := ⟨List.replicate n 0, 0, false⟩
def werr (n : Nat) (t : Ty) (v : Val) : Option Bool := (wrote (fresh n) [(t, v)]).map (·.err)
def wpos (n : Nat) (t : Ty) (v : Val) : Option (Bool × Nat) :=
  (wrote (fresh n) [(t, v)]).map fun c => (c.err, c.pos)
/-- Written without error, leaving `left` bytes; reading what was written gives it back. -/
def there (n : Nat) (t : Ty) (v : Val) (left : Nat) : Bool :=
  match wrote (fresh n) [(t, v)] with
  | .some c => !c.err && c.left == left && read c.buf t v false left
  | .none => false

/-- binary_rw_test.cpp:390-425 -/
example : let w : Cursor := ⟨[], 0, false⟩
    w.left = 0 ∧ w.pos = 0 ∧ w.empty = true ∧ w.err = false ∧
    (write (.scalar 1) (byte 1) w).map (·.err) = .some true ∧ w.notifyError.err = true ∧
    (w.skip (-1)).map (·.err) = .some true ∧ (w.skip 1).map (·.err) = .some true := by decide +kernel

/-- binary_rw_test.cpp:427-438 -/
example : (((fresh 4).skip 1).bind (·.skip (-1))).map (fun c => (c.left, c.err)) = .some (4, false) := by
  decide +kernel

/-- binary_rw_test.cpp:440-470 -/
example : let b (n : Nat) : Ty × Val := (.scalar 1, byte n)
    (wrote (fresh 4) [b 2]).map (fun c => (c.buf, c.left, c.err)) = .some ([2, 0, 0, 0], 3, false) ∧
    (wrote (fresh 4) [b 2, b 5, b 66]).map (fun c => (c.buf, c.left, c.err)) =
      .some ([2, 5, 66, 0], 1, false) ∧
    (wrote (fresh 4) [b 2, b 5, b 66, b 255]).map (fun c => (c.buf, c.left, c.err)) =
      .some ([2, 5, 66, 255], 0, false) ∧
    (wrote (fresh 4) [b 2, b 5, b 66, b 255, b 255]).map (fun c => (c.empty, c.err)) =
      .some (true, true) ∧
    (wrote (fresh 4) [(.scalar 4, i32 0x01020304)]).map (fun c => (c.buf, c.empty)) =
      .some ([4, 3, 2, 1], true) := by
  refine ⟨by decide +kernel, by decide +kernel, by decide +kernel, by decide +kernel, by decide +kernel⟩

/-- binary_rw_test.cpp:484-520 -/
example : werr 0 .str (s "Test") = .some true ∧ werr 7 .str (s "Test") = .some true ∧
    ((wrote (fresh 7) [(.str, s "Test")]).bind fun c => (Cursor.mk c.buf 0 false).readUInt 4).map
      (fun x => (x.1, x.2.left)) = .some (4, 3) ∧ there 9 .str (s "Test") 1 = true := by
  refine ⟨by decide +kernel, by decide +kernel, by decide +kernel, by decide +kernel⟩

/-- binary_rw_test.cpp:522-562 -/
example : werr 0 (.map lt intT .str) (.map []) = .some true ∧
    wpos 18 (.map lt intT .str) (.map [(i32 0, s "Test"), (i32 1, s "ZXC")]) = .some (true, 16) ∧
    there 27 (.map lt intT .str) (.map [(i32 100, s "Test"), (i32 200, s "ZXC")]) 0 = true := by
  refine ⟨by decide +kernel, by decide +kernel, by decide +kernel⟩

/-- binary_rw_test.cpp:564-602 -/
example : werr 0 (.set lt intT) (.set []) = .some true ∧
    wpos 10 (.set lt .str) (.set [s "ABC", s "ZXC"]) = .some (true, 8) ∧
    there 7 (.set lt (.scalar 1)) (.set [byte 1, byte 2, byte 3]) 0 = true := by
  refine ⟨by decide +kernel, by decide +kernel, by decide +kernel⟩

/-- binary_rw_test.cpp:604-650 -/
example : werr 0 (.opt intT) (.some (i32 44)) = .some true ∧
    wpos 2 (.opt intT) (.some (i32 32)) = .some (true, 1) ∧
    ((wrote (fresh 2) [(.opt intT, .some (i32 32))]).map fun c => c.buf[0]?) = .some (.some 1) ∧
    there 1 (.opt intT) .none 0 = true ∧
    there 7 (.opt .str) (.some (s "!?")) 0 = true := by
  refine ⟨by decide +kernel, by decide +kernel, by decide +kernel, by decide +kernel, by decide +kernel⟩

/-- binary_rw_test.cpp:652-714 -/
example : werr 0 variant (.var 0 (i32 1)) = .some true ∧
    (write variant (default variant) ⟨[1, 0, 0], 0, false⟩).map (fun c => (c.err, c.pos, c.buf[0]?)) =
      .some (true, 1, .some 0) ∧
    (match wrote (fresh 10) [(variant, .var 0 (i32 9001)), (variant, .var 0 (i32 9002))] with
     | .some c => !c.err && c.empty &&
        (match (Cursor.mk c.buf 0 false).read variant (.var 0 (i32 9001)) with
         | .some (v, r, _) => same v (.var 0 (i32 9001)) &&
            (match r.read variant v with
             | .some (v, r, _) => same v (.var 0 (i32 9002)) && r.empty && !r.err
             | .none => false)
         | .none => false)
     | .none => false) = true ∧
    there 24 variant (.var 1 (s "Hello, world!      ")) 0 = true := by
  refine ⟨by decide +kernel, by decide +kernel, by decide +kernel, by decide +kernel⟩

/-- binary_rw_test.cpp:716-774 -/
example : werr 0 (.vec intT) (.vec []) = .some true ∧
    wpos 10 (.vec .str) (.vec [s "test", s "zxc"]) = .some (true, 8) ∧
    there 10 (.vec (.scalar 2)) (.vec [i16 100, i16 200, i16 300]) 0 = true ∧
    there 19 (.vec .str) (.vec [s "test", s "zxc"]) 0 = true := by
  refine ⟨by decide +kernel, by decide +kernel, by decide +kernel, by decide +kernel⟩

/-- binary_rw_test.cpp:776-830: the user defined type writes 16, 4 and 4 bytes, like a pair. -/
def user : Ty := .pair (.scalar 16) (.pair (.scalar 4) (.scalar 4))
example : there 52 (.vec user) (.vec
    [.pair (.scalar (toLE 16 0x460ca000402e147b3f8000004048f5c3)) (.pair (i32 2) (i32 0)),
     .pair (.scalar (toLE 16 0x404000004000000000000000)) (.pair (i32 55) (i32 0x461c4000))]) 0 = true := by
  decide +kernel

end Verif.Conform.BinaryTest
