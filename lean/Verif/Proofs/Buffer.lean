import Verif.Model.Buffer

/-
How the buffered transfer of `Verif/Model/Buffer.lean` accounts for bytes, for any device.
-/

namespace Cmp

namespace IoBuffer

/-- The bytes loaded into the buffer and not handed out yet. -/
def unread (b : IoBuffer) : List Byte := (b.data.take b.size).drop b.position

/-- The bytes written to the buffer and not passed to the device yet. -/
def pending (b : IoBuffer) : List Byte := if b.writeDirty then b.data.take b.position else []

theorem unread_length (b : IoBuffer) (h : b.size ≤ b.data.length) :
    b.unread.length = b.size - b.position := by
  simp [unread, Nat.min_eq_left h]

/-- Handing out what the buffer holds. -/
theorem read_within (b : IoBuffer) (n : Nat) (hs : b.size ≤ b.data.length)
    (hn : b.position + n ≤ b.size) :
    b.read n = .ok (b.unread.take n, { b with position := b.position + n }) := by
  have h1 : ¬ (b.position + n > b.size) := by omega
  have h2 : ¬ (b.position + n > b.data.length) := by omega
  simp only [read, h1, h2, false_and, if_false, unread]
  rw [List.drop_take, List.take_take, Nat.min_eq_left (by omega)]

end IoBuffer

namespace Res

variable {δ α : Type}

theorem onDev_ok {x : M δ α} {r : Res δ} {a : α} {d : δ} (h : x r.dev = (.ok a, d)) :
    onDev x r = (.ok a, { r with dev := d }) := by
  simp [onDev, h]

theorem bufRead_within (r : Res δ) (n : Nat) (hs : r.buf.size ≤ r.buf.data.length)
    (hn : r.buf.position + n ≤ r.buf.size) :
    bufRead n r = (.ok (r.buf.unread.take n),
      { r with buf := { r.buf with position := r.buf.position + n } }) := by
  simp [bufRead, r.buf.read_within n hs hn]

/-- The buffer after a fill. -/
def filled (b : IoBuffer) (result : ReadResult) : IoBuffer :=
  { data := result.bytes.take b.data.length ++ b.data.drop result.bytes.length,
    size := result.count, position := 0, readDirty := false, writeDirty := b.writeDirty }

theorem fill_ok {raw : Nat → ReadRequest → M δ ReadResult} {r : Res δ} {result : ReadResult} {d : δ}
    (h : raw r.buf.data.length .fillBuffer r.dev = (.ok result, d)) :
    fill raw r = (.ok result.count, ⟨filled r.buf result, d⟩) := by
  simp only [fill, IoBuffer.capacity]
  rw [M.bind_ok (M.get_apply r), M.bind_ok (onDev_ok h)]
  rfl

theorem filled_length (b : IoBuffer) (bytes : List Byte) (n : Nat) :
    (filled b ⟨bytes, n⟩).data.length = b.data.length := by
  simp only [filled, List.length_append, List.length_take, List.length_drop]
  omega

theorem filled_unread (b : IoBuffer) (bytes : List Byte) (h : bytes.length ≤ b.data.length) :
    (filled b ⟨bytes, bytes.length⟩).unread = bytes := by
  simp [filled, IoBuffer.unread, List.take_of_length_le h]

/-- A read the loaded buffer can satisfy. -/
theorem readLoaded_within (raw : Nat → ReadRequest → M δ ReadResult) (r : Res δ) (n : Nat)
    (hs : r.buf.size ≤ r.buf.data.length) (hn : r.buf.position + n ≤ r.buf.size) :
    readLoaded raw n r = (.ok ⟨r.buf.unread.take n, n⟩,
      { r with buf := { r.buf with position := r.buf.position + n } }) := by
  simp only [readLoaded]
  rw [M.bind_ok (M.get_apply r), if_neg (by omega), M.bind_ok (bufRead_within r n hs hn)]
  simp [IoBuffer.unread_length _ hs, Nat.min_eq_left (show n ≤ r.buf.size - r.buf.position by omega)]

theorem first_ok (r : Res δ) (hs : r.buf.size ≤ r.buf.data.length)
    (hp : r.buf.position ≤ r.buf.size) :
    drain (r.buf.size - r.buf.position) r =
      (.ok r.buf.unread, { r with buf := { r.buf with position := r.buf.size } }) := by
  have hl := r.buf.unread_length hs
  unfold drain
  by_cases h : r.buf.size - r.buf.position > 0
  · rw [if_pos h, bufRead_within r _ hs (by omega), List.take_of_length_le (by omega)]
    simp [Nat.add_sub_cancel' hp]
  · rw [if_neg h]
    have e : r.buf.position = r.buf.size := by omega
    have : r.buf.unread = [] := List.eq_nil_of_length_eq_zero (by omega)
    rw [this, ← e]
    rfl

/-- A read that empties the buffer and takes the rest, more than the buffer holds, from the
device. -/
theorem readLoaded_lean {raw : Nat → ReadRequest → M δ ReadResult} {r : Res δ} {n : Nat}
    {result : ReadResult} {d : δ}
    (hs : r.buf.size ≤ r.buf.data.length) (hp : r.buf.position ≤ r.buf.size)
    (hn : r.buf.position + n > r.buf.size)
    (hc : n - (r.buf.size - r.buf.position) > r.buf.data.length)
    (h : raw (n - (r.buf.size - r.buf.position)) .leanRetrieval r.dev = (.ok result, d)) :
    readLoaded raw n r = (.ok ⟨r.buf.unread ++ result.bytes, r.buf.unread.length + result.count⟩,
      ⟨{ r.buf with position := r.buf.size }, d⟩) := by
  have hl := r.buf.unread_length hs
  simp only [readLoaded]
  rw [M.bind_ok (M.get_apply r), if_pos hn, if_neg (by omega), M.bind_ok (first_ok r hs hp),
    if_pos (by simpa [hl, IoBuffer.capacity] using hc)]
  rw [hl] at *
  rw [M.bind_ok (onDev_ok (r := { r with buf := { r.buf with position := r.buf.size } }) h)]
  rfl

/-- A read that empties the buffer, fills it again and takes the rest from there. -/
theorem readLoaded_fill {raw : Nat → ReadRequest → M δ ReadResult} {r : Res δ} {n : Nat}
    {bytes : List Byte} {d : δ}
    (hs : r.buf.size ≤ r.buf.data.length) (hp : r.buf.position ≤ r.buf.size)
    (hn : r.buf.position + n > r.buf.size)
    (hc : n - (r.buf.size - r.buf.position) ≤ r.buf.data.length)
    (hb : bytes.length ≤ r.buf.data.length)
    (h : raw r.buf.data.length .fillBuffer r.dev = (.ok ⟨bytes, bytes.length⟩, d)) :
    readLoaded raw n r =
      (.ok ⟨r.buf.unread ++ bytes.take (n - r.buf.unread.length),
          (r.buf.unread ++ bytes.take (n - r.buf.unread.length)).length⟩,
        ⟨{ filled r.buf ⟨bytes, bytes.length⟩ with
            position := min bytes.length (n - r.buf.unread.length) }, d⟩) := by
  have hl := r.buf.unread_length hs
  have hcap : ¬ (n - r.buf.unread.length > r.buf.capacity) := by
    rw [hl]; simp only [IoBuffer.capacity]; omega
  simp only [readLoaded]
  rw [M.bind_ok (M.get_apply r), if_pos hn, if_neg (by omega), M.bind_ok (first_ok r hs hp),
    if_neg hcap]
  rw [M.bind_ok (fill_ok (r := { r with buf := { r.buf with position := r.buf.size } }) h)]
  have hk : (if bytes.length < n - r.buf.unread.length then bytes.length
      else n - r.buf.unread.length) = min bytes.length (n - r.buf.unread.length) := by
    split <;> omega
  rw [hk]
  have hf : filled { r.buf with position := r.buf.size } ⟨bytes, bytes.length⟩ =
      filled r.buf ⟨bytes, bytes.length⟩ := rfl
  rw [hf]
  rw [M.bind_ok (bufRead_within _ _ (by rw [filled_length]; exact hb)
    (by simp only [filled]; omega))]
  rw [filled_unread _ _ hb]
  have ht : bytes.take (min bytes.length (n - r.buf.unread.length)) =
      bytes.take (n - r.buf.unread.length) := by
    rw [Nat.min_comm, ← List.take_eq_take_min]
  rw [ht]
  simp [filled]

/-- A read of a dirty buffer fills it first. -/
theorem readBuffered_dirty {raw : Nat → ReadRequest → M δ ReadResult} {r : Res δ} {n : Nat}
    {result : ReadResult} {d : δ} (hd : r.buf.readDirty = true)
    (h : raw r.buf.data.length .fillBuffer r.dev = (.ok result, d)) :
    readBuffered raw n r = readLoaded raw n ⟨filled r.buf result, d⟩ := by
  simp only [readBuffered]
  rw [M.bind_ok (M.get_apply r), if_pos hd, M.bind_ok (fill_ok h)]

theorem readBuffered_clean (raw : Nat → ReadRequest → M δ ReadResult) (r : Res δ) (n : Nat)
    (hd : r.buf.readDirty = false) : readBuffered raw n r = readLoaded raw n r := by
  simp only [readBuffered]
  rw [M.bind_ok (M.get_apply r), if_neg (by simp [hd])]

theorem read_buffered (raw : Nat → ReadRequest → M δ ReadResult) (r : Res δ) (n : Nat)
    (h : 0 < r.buf.data.length) : read raw n r = readBuffered raw n r := by
  simp only [read]
  rw [M.bind_ok (M.get_apply r), if_pos (show r.buf.capacity > 0 from h)]

theorem read_unbuffered (raw : Nat → ReadRequest → M δ ReadResult) (r : Res δ) (n : Nat)
    (h : r.buf.data.length = 0) : read raw n r = onDev (raw n .leanRetrieval) r := by
  simp only [read]
  rw [M.bind_ok (M.get_apply r), if_neg (by simp [IoBuffer.capacity, h])]

/- ### Output -/

theorem bufWrite_ok (r : Res δ) (bytes : List Byte)
    (h : r.buf.position + bytes.length ≤ r.buf.data.length) :
    bufWrite bytes r = (.ok bytes.length, { r with buf := { r.buf with
      data := r.buf.data.take r.buf.position ++ bytes ++
        r.buf.data.drop (r.buf.position + bytes.length),
      position := r.buf.position + bytes.length, writeDirty := true } }) := by
  have : ¬ (r.buf.position + bytes.length > r.buf.data.length) := by omega
  simp [bufWrite, IoBuffer.write, this, IoBuffer.setWriteDirty]

theorem flush_clean (raw : List Byte → M δ Nat) (r : Res δ) (h : r.buf.writeDirty = false) :
    flush raw r = (.ok (), r) := by
  simp only [flush]
  rw [M.bind_ok (M.get_apply r), if_neg (by simp [h])]
  rfl

theorem flush_dirty {raw : List Byte → M δ Nat} {r : Res δ} {n : Nat} {d : δ}
    (h : r.buf.writeDirty = true) (hp : r.buf.position ≤ r.buf.data.length)
    (hr : raw (r.buf.data.take r.buf.position) r.dev = (.ok n, d)) :
    flush raw r = (.ok (), ⟨{ r.buf with writeDirty := false, position := 0 }, d⟩) := by
  simp only [flush]
  rw [M.bind_ok (M.get_apply r), if_pos h, if_neg (by omega), M.bind_ok (onDev_ok hr)]
  simp [IoBuffer.setWriteDirty]

end Res

end Cmp
