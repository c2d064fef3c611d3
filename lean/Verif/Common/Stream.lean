/-!
Qt's QDataStream as far as qbs uses it: big-endian integers, byte arrays, UTF-16 strings, string
lists. Shared by the models of the launcher protocol and of the persistent build graph.

This is Qt code, not qbs code: the encoding below follows Qt's documented serialisation format
(https://doc.qt.io/qt-6/datastreamformat.html); it is part of the trusted base.
Simplification: the 64 bit extended-size marker of Qt ≥ 6.7 is not modelled; all the round trip
theorems require lengths below 2^32 - 2.
-/

namespace Verif.DS

abbrev Bytes := List UInt8

/-- Big-endian, `k` bytes. -/
def putBE : Nat → Nat → Bytes
  | 0, _ => []
  | k + 1, n => UInt8.ofNat (n / 256 ^ k) :: putBE k n

/-- Value of a big-endian byte sequence. -/
def valBE (bs : Bytes) : Nat := bs.foldl (fun a b => a * 256 + b.toNat) 0

/-- Takes exactly `k` bytes from a stream. -/
def takeN (k : Nat) (bs : Bytes) : Option (Bytes × Bytes) :=
  if k ≤ bs.length then some (bs.take k, bs.drop k) else none

def getBE (k : Nat) (bs : Bytes) : Option (Nat × Bytes) :=
  (takeN k bs).map fun p => (valBE p.1, p.2)

/-- Two's complement. -/
def toU (bits : Nat) (x : Int) : Nat := (x % (2 ^ bits : Nat)).toNat
def toS (bits : Nat) (n : Nat) : Int := if n < 2 ^ (bits - 1) then n else (n : Int) - (2 ^ bits : Nat)

/-- `stream << int` / `stream >> int`. -/
def putI32 (x : Int) : Bytes := putBE 4 (toU 32 x)
def getI32 (bs : Bytes) : Option (Int × Bytes) := (getBE 4 bs).map fun p => (toS 32 p.1, p.2)

/-- The range of `int`. -/
def IsI32 (x : Int) : Prop := -(2 ^ 31 : Int) ≤ x ∧ x < 2 ^ 31
instance (x : Int) : Decidable (IsI32 x) := by unfold IsI32; infer_instance

/-- `quint8`. -/
def putU8 (x : Nat) : Bytes := putBE 1 x
def getU8 : Bytes → Option (Nat × Bytes) := getBE 1

/-- `quint64`, also `quintptr` on the 64 bit platforms considered here. -/
def putU64 (x : Nat) : Bytes := putBE 8 x
def getU64 : Bytes → Option (Nat × Bytes) := getBE 8

/-- QByteArray: `none` is the null byte array, written as length 0xffffffff. -/
abbrev QBytes := Option Bytes

def putBytes : QBytes → Bytes
  | none => putBE 4 0xffffffff
  | some bs => putBE 4 bs.length ++ bs

def getBytes (bs : Bytes) : Option (QBytes × Bytes) :=
  match getBE 4 bs with
  | none => none
  | some (n, r) => if n = 0xffffffff then some (none, r) else (takeN n r).map fun p => (some p.1, p.2)

/-- QString as UTF-16 code units; `none` is the null string. -/
abbrev QStr := Option (List UInt16)

def putUnits : List UInt16 → Bytes
  | [] => []
  | u :: us => putBE 2 u.toNat ++ putUnits us

def unitsOf : Bytes → List UInt16
  | a :: b :: r => UInt16.ofNat (a.toNat * 256 + b.toNat) :: unitsOf r
  | _ => []

def putStr : QStr → Bytes
  | none => putBE 4 0xffffffff
  | some us => putBE 4 (2 * us.length) ++ putUnits us

/-- An odd byte length is an error (`ReadCorruptData`). -/
def getStr (bs : Bytes) : Option (QStr × Bytes) :=
  match getBE 4 bs with
  | none => none
  | some (n, r) =>
    if n = 0xffffffff then some (none, r)
    else if n % 2 = 1 then none
    else (takeN n r).map fun p => (some (unitsOf p.1), p.2)

/-- The rest of a container: `n` elements. -/
def getMany {α} (get : Bytes → Option (α × Bytes)) : Nat → Bytes → Option (List α × Bytes)
  | 0, bs => some ([], bs)
  | n + 1, bs =>
    match get bs with
    | none => none
    | some (a, r) => (getMany get n r).map fun p => (a :: p.1, p.2)

def putMany {α} (put : α → Bytes) : List α → Bytes
  | [] => []
  | a :: as => put a ++ putMany put as

/-- QStringList. -/
def putStrs (l : List QStr) : Bytes := putBE 4 l.length ++ putMany putStr l
def getStrs (bs : Bytes) : Option (List QStr × Bytes) :=
  match getBE 4 bs with
  | none => none
  | some (n, r) => getMany getStr n r

/-! ### Round trips -/

theorem putBE_length (k n : Nat) : (putBE k n).length = k := by
  induction k with
  | zero => rfl
  | succ k ih => simp [putBE, ih]

theorem foldl_val (a : Nat) (bs : Bytes) :
    bs.foldl (fun a b => a * 256 + b.toNat) a = a * 256 ^ bs.length + valBE bs := by
  induction bs generalizing a with
  | nil => simp [valBE]
  | cons b bs ih =>
    have h1 := ih (a * 256 + b.toNat)
    have h2 := ih (b.toNat)
    simp only [List.foldl_cons, List.length_cons, valBE] at h1 h2 ⊢
    rw [h1]; simp only [Nat.zero_mul, Nat.zero_add]
    rw [h2, Nat.pow_succ, Nat.add_mul, Nat.mul_assoc, Nat.mul_comm 256, Nat.add_assoc]

theorem valBE_cons (b : UInt8) (bs : Bytes) :
    valBE (b :: bs) = b.toNat * 256 ^ bs.length + valBE bs := by
  have := foldl_val b.toNat bs
  simpa [valBE] using this

theorem valBE_putBE (k n : Nat) : valBE (putBE k n) = n % 256 ^ k := by
  induction k with
  | zero => simp [putBE, valBE, Nat.mod_one]
  | succ k ih =>
    rw [putBE, valBE_cons, ih, putBE_length]
    simp only [UInt8.toNat_ofNat']
    have : n % 256 ^ (k + 1) = 256 ^ k * (n / 256 ^ k % 256) + n % 256 ^ k := by
      rw [Nat.pow_succ, Nat.mod_mul, Nat.add_comm]
    rw [this, Nat.mul_comm]

theorem takeN_append (bs r : Bytes) : takeN bs.length (bs ++ r) = some (bs, r) := by
  simp [takeN]

theorem takeN_eq {k : Nat} {bs r : Bytes} (h : bs.length = k) :
    takeN k (bs ++ r) = some (bs, r) := by rw [← h, takeN_append]

theorem getBE_putBE (k n : Nat) (r : Bytes) (h : n < 256 ^ k) :
    getBE k (putBE k n ++ r) = some (n, r) := by
  rw [getBE, takeN_eq (putBE_length k n)]
  simp [valBE_putBE, Nat.mod_eq_of_lt h]

theorem toS_toU {x : Int} (h : IsI32 x) : toS 32 (toU 32 x) = x := by
  unfold IsI32 at h
  unfold toS toU
  simp only [Nat.reducePow, Nat.reduceSub] at *
  split <;> omega

theorem toU_lt (x : Int) : toU 32 x < 256 ^ 4 := by
  unfold toU; simp only [Nat.reducePow]; omega

theorem getI32_putI32 {x : Int} (h : IsI32 x) (r : Bytes) :
    getI32 (putI32 x ++ r) = some (x, r) := by
  rw [getI32, putI32, getBE_putBE _ _ _ (toU_lt x)]
  simp [toS_toU h]

theorem getU8_putU8 {x : Nat} (h : x < 256) (r : Bytes) : getU8 (putU8 x ++ r) = some (x, r) :=
  getBE_putBE 1 x r (by simpa using h)

theorem getU64_putU64 {x : Nat} (h : x < 2 ^ 64) (r : Bytes) :
    getU64 (putU64 x ++ r) = some (x, r) :=
  getBE_putBE 8 x r (by simpa using h)

/-- Sizes that fit into the 32 bit length field. -/
def BytesOk : QBytes → Prop
  | none => True
  | some bs => bs.length < 0xfffffffe

def StrOk : QStr → Prop
  | none => True
  | some us => 2 * us.length < 0xfffffffe

def StrsOk (l : List QStr) : Prop := l.length < 0xfffffffe ∧ ∀ s ∈ l, StrOk s

theorem getBytes_putBytes {x : QBytes} (h : BytesOk x) (r : Bytes) :
    getBytes (putBytes x ++ r) = some (x, r) := by
  cases x with
  | none => rw [getBytes, putBytes, getBE_putBE _ _ _ (by decide)]; simp
  | some bs =>
    simp only [BytesOk] at h
    rw [getBytes, putBytes, List.append_assoc, getBE_putBE _ _ _ (by omega)]
    simp only
    rw [if_neg (by omega), takeN_append]
    rfl

theorem putUnits_length (us : List UInt16) : (putUnits us).length = 2 * us.length := by
  induction us with
  | nil => rfl
  | cons u us ih => simp [putUnits, ih, putBE_length]; omega

theorem unitsOf_putUnits (us : List UInt16) : unitsOf (putUnits us) = us := by
  induction us with
  | nil => rfl
  | cons u us ih =>
    have hu : u.toNat < 65536 := u.toNat_lt
    simp only [putUnits, putBE, List.cons_append, List.nil_append, unitsOf, ih, List.cons.injEq,
      and_true]
    simp only [UInt8.toNat_ofNat']
    have : u.toNat / 256 ^ 1 % 2 ^ 8 * 256 + u.toNat / 256 ^ 0 % 2 ^ 8 = u.toNat := by omega
    rw [this]
    simp

theorem getStr_putStr {x : QStr} (h : StrOk x) (r : Bytes) :
    getStr (putStr x ++ r) = some (x, r) := by
  cases x with
  | none => rw [getStr, putStr, getBE_putBE _ _ _ (by decide)]; simp
  | some us =>
    simp only [StrOk] at h
    rw [getStr, putStr, List.append_assoc, getBE_putBE _ _ _ (by omega)]
    simp only
    rw [if_neg (by omega), if_neg (by omega), takeN_eq (putUnits_length us)]
    simp [unitsOf_putUnits]

theorem getMany_putMany {α} {get : Bytes → Option (α × Bytes)} {put : α → Bytes} {P : α → Prop}
    (h : ∀ a r, P a → get (put a ++ r) = some (a, r)) (l : List α) (hl : ∀ a ∈ l, P a) (r : Bytes) :
    getMany get l.length (putMany put l ++ r) = some (l, r) := by
  induction l with
  | nil => rfl
  | cons a l ih =>
    simp only [List.length_cons, getMany, putMany, List.append_assoc]
    rw [h a _ (hl a (by simp))]
    simp only
    rw [ih (fun b hb => hl b (by simp [hb]))]
    rfl

theorem getStrs_putStrs {l : List QStr} (h : StrsOk l) (r : Bytes) :
    getStrs (putStrs l ++ r) = some (l, r) := by
  have := h.1
  rw [getStrs, putStrs, List.append_assoc, getBE_putBE _ _ _ (by omega)]
  exact getMany_putMany (fun a r h => getStr_putStr h r) l h.2 r

end Verif.DS
