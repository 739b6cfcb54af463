import Verif.Props.File
import Verif.Spec.ShortReads

/-
The loop of `read_block` on Unix hands the portions to the same place.
-/

namespace Cmp

open Spec (handed portions overlaid shortReads)

theorem portion_eq_handed (n : Nat) (l : List Nat) (h : 0 < n) :
    FileDev.portion n l = handed n l := by
  cases l <;> simp only [FileDev.portion, handed, List.headD] <;> omega

theorem handed_pos {n : Nat} (l : List Nat) (h : 0 < n) : 0 < handed n l ∧ handed n l ≤ n := by
  simp only [handed]
  omega

theorem portions_nil (n total : Nat) (l : List Nat) : portions n total [] l = [] := by
  rw [portions]
  simp

theorem portions_zero (total : Nat) (content : List Byte) (l : List Nat) :
    portions 0 total content l = [] := by
  rw [portions]
  simp

theorem portions_cons {n total : Nat} {content : List Byte} (l : List Nat) (hn : 0 < n)
    (hc : content ≠ []) : portions n total content l =
      content.take (handed n l) ::
        if total + (content.take (handed n l)).length = n then []
        else portions n (total + (content.take (handed n l)).length) (content.drop (handed n l))
          l.tail := by
  rw [portions]
  rw [if_neg (by simp only [not_or]; exact ⟨by omega, hc⟩)]

/-- The loop, from any point on: `l'` is what is left of the schedule; it is unknown only at the end
of the file. -/
theorem readLoop_short (n : Nat) (hn : 0 < n) (content : List Byte) (f : Desc)
    (hm : f.mode ≠ .writeOnly) :
    ∀ (fuel : Nat) (stored : List Byte) (total q : Nat) (d : FileDev),
      d.fd = some { f with offset := q } → d.files f.path = some content →
      content.length - q < fuel →
      ∃ l', (content.drop (q + (portions n total (content.drop q) d.reads).flatten.length) = [] ∨
          l' = d.reads.drop (portions n total (content.drop q) d.reads).length) ∧
        FileDev.readLoop n fuel stored total d =
          (.ok ⟨(portions n total (content.drop q) d.reads).foldl
              (fun memory p => p ++ memory.drop p.length) stored,
            total + (portions n total (content.drop q) d.reads).flatten.length⟩,
          { d with
            fd := some { f with
              offset := q + (portions n total (content.drop q) d.reads).flatten.length }
            reads := l' }) := by
  intro fuel
  induction fuel with
  | zero => intros; omega
  | succ fuel ih =>
    intro stored total q d hf hc hfuel
    have e := FileDev.sysRead_open n hf hm hc
    rw [portion_eq_handed n d.reads hn] at e
    have hp := handed_pos d.reads hn
    simp only [FileDev.readLoop]
    rw [M.bind_ok e]
    dsimp only
    by_cases hnil : content.drop q = []
    · refine ⟨d.reads.tail, .inl ?_, ?_⟩
      · rw [hnil, portions_nil]
        simpa using hnil
      · rw [hnil, portions_nil]
        simp
    · rw [portions_cons d.reads hn hnil]
      have hlen : 0 < ((content.drop q).take (handed n d.reads)).length := by
        have := List.length_pos_iff.mpr hnil
        rw [List.length_take]
        omega
      have hlen' : ((content.drop q).take (handed n d.reads)).length =
          min (handed n d.reads) (content.length - q) := by simp
      have hne : ¬ ((content.drop q).take (handed n d.reads)).length = 0 := by omega
      simp only [if_neg hne]
      by_cases hfull : total + ((content.drop q).take (handed n d.reads)).length = n
      · simp only [if_pos hfull]
        refine ⟨d.reads.tail, .inr (by simp), ?_⟩
        simp
      · simp only [if_neg hfull]
        have hdrop : (content.drop q).drop (handed n d.reads) =
            content.drop (q + ((content.drop q).take (handed n d.reads)).length) := by
          rw [List.drop_drop]
          by_cases hh : handed n d.reads ≤ content.length - q
          · rw [hlen', Nat.min_eq_left hh]
          · rw [List.drop_eq_nil_of_le (by omega), List.drop_eq_nil_of_le (by omega)]
        rw [hdrop]
        generalize (content.drop q).take (handed n d.reads) = G at *
        obtain ⟨l', h1, h2⟩ := ih (G ++ stored.drop G.length) (total + G.length) (q + G.length)
          { d with fd := some { f with offset := q + G.length }, reads := d.reads.tail }
          rfl hc (by omega)
        simp only at h1 h2
        refine ⟨l', ?_, ?_⟩
        · rcases h1 with h1 | h1
          · left
            simpa [Nat.add_assoc] using h1
          · right
            rw [h1]
            simp
        · rw [h2]
          simp [Nat.add_assoc]

/-- A file object without a buffer, at an offset. -/
def unbuffered (files : Nat → Option (List Byte)) (reads : List Nat) (path q : Nat)
    (mode : AccessMode) : FileObj :=
  ⟨⟨IoBuffer.make 0, ⟨files, some ⟨path, q, mode⟩, 0, reads⟩⟩, some path, mode⟩

theorem readBlocks_short (files : Nat → Option (List Byte)) (reads : List Nat) (path q n : Nat)
    (mode : AccessMode) (content : List Byte) (hc : files path = some content)
    (hm : mode ≠ .writeOnly) (hn : n ≤ FileDev.ssizeMax) :
    ∃ l', (content.drop (q + (portions n 0 (content.drop q) reads).flatten.length) = [] ∨
      l' = reads.drop (portions n 0 (content.drop q) reads).length) ∧
    FileDev.readBlocks FileDev.readBlock FileDev.ssizeMax n n
        ⟨files, some ⟨path, q, mode⟩, 0, reads⟩ =
      (.ok ⟨overlaid (portions n 0 (content.drop q) reads),
          (portions n 0 (content.drop q) reads).flatten.length⟩,
        ⟨files, some ⟨path, q + (portions n 0 (content.drop q) reads).flatten.length, mode⟩, 0,
          l'⟩) := by
  cases n with
  | zero =>
    refine ⟨reads, .inr (by rw [portions_zero]; rfl), ?_⟩
    rw [portions_zero]
    rfl
  | succ k =>
    obtain ⟨l', h1, h2⟩ := readLoop_short (k + 1) (by omega) content ⟨path, q, mode⟩ hm
      (content.length + 1) [] 0 q ⟨files, some ⟨path, q, mode⟩, 0, reads⟩ rfl hc (by omega)
    simp only at h1 h2
    refine ⟨l', h1, ?_⟩
    have hb : FileDev.readBlock (k + 1) ⟨files, some ⟨path, q, mode⟩, 0, reads⟩ =
        FileDev.readLoop (k + 1) (content.length + 1) [] 0
          ⟨files, some ⟨path, q, mode⟩, 0, reads⟩ := by
      simp only [FileDev.readBlock]
      rw [M.bind_ok (M.get_apply _)]
      simp only [Option.bind_some, hc, Option.getD_some]
    rw [h2] at hb
    simp only [FileDev.readBlocks]
    rw [if_neg (by omega), Nat.min_eq_left hn, M.bind_ok hb]
    dsimp only
    by_cases h : 0 + (portions (k + 1) 0 (content.drop q) reads).flatten.length ≠ k + 1
    · rw [if_pos h]
      simp [overlaid]
    · rw [if_neg h, show k + 1 - FileDev.ssizeMax = 0 by omega]
      have : ∀ d', FileDev.readBlocks FileDev.readBlock FileDev.ssizeMax k 0 d' =
          (.ok ⟨[], 0⟩, d') := by
        intro d'; cases k <;> rfl
      rw [M.bind_ok (this _)]
      simp [overlaid]

theorem read_short (files : Nat → Option (List Byte)) (reads : List Nat) (path q n : Nat)
    (mode : AccessMode) (content : List Byte) (hc : files path = some content)
    (hm : mode ≠ .writeOnly) (hn : n ≤ FileDev.ssizeMax) :
    ∃ l', (content.drop (q + (portions n 0 (content.drop q) reads).flatten.length) = [] ∨
        l' = reads.drop (portions n 0 (content.drop q) reads).length) ∧
      FileObj.read .unix n (unbuffered files reads path q mode) =
        (.ok ⟨overlaid (portions n 0 (content.drop q) reads),
            (portions n 0 (content.drop q) reads).flatten.length⟩,
          unbuffered files l' path
            (q + (portions n 0 (content.drop q) reads).flatten.length) mode) := by
  obtain ⟨l', h1, h2⟩ := readBlocks_short files reads path q n mode content hc hm hn
  refine ⟨l', h1, ?_⟩
  have hraw : FileDev.readRaw n .leanRetrieval ⟨files, some ⟨path, q, mode⟩, 0, reads⟩ =
      (.ok ⟨overlaid (portions n 0 (content.drop q) reads),
            (portions n 0 (content.drop q) reads).flatten.length⟩,
          ⟨files, some ⟨path, q + (portions n 0 (content.drop q) reads).flatten.length, mode⟩, 0,
            l'⟩) := by
    have hs : FileDev.skipFill FileDev.seek .leanRetrieval
        ⟨files, some ⟨path, q, mode⟩, 0, reads⟩ =
        (.ok (), ⟨files, some ⟨path, q, mode⟩, 0, reads⟩) := by
      simp only [FileDev.skipFill]
      rw [M.bind_ok (M.get_apply _), if_neg (by simp)]
      rfl
    simp only [FileDev.readRaw, M.noexcept_apply]
    rw [M.bind_ok hs, M.bind_ok h2]
    rfl
  rw [FileObj.read_eq (by exact hm)]
  simp only [FileObj.onRes, Res.read, unbuffered]
  rw [M.bind_ok (M.get_apply _), if_neg (by simp [IoBuffer.capacity, IoBuffer.make])]
  simp only [Res.onDev, FilePlatform.readRaw, hraw]

theorem reads_short (files : Nat → Option (List Byte)) (path : Nat) (mode : AccessMode)
    (content : List Byte) (hc : files path = some content) (hm : mode ≠ .writeOnly) :
    ∀ (ns : List Nat) (reads l : List Nat) (q : Nat), (∀ n ∈ ns, n ≤ FileDev.ssizeMax) →
      (content.drop q = [] ∨ l = reads) →
      ∃ f, M.runList (FileObj.read .unix) ns (unbuffered files l path q mode) =
        (.ok (shortReads ns (content.drop q) reads), f)
  | [], _, _, _, _, _ => ⟨_, rfl⟩
  | n :: ns, reads, l, q, hns, hl => by
    have hsame : portions n 0 (content.drop q) l = portions n 0 (content.drop q) reads := by
      rcases hl with h | h
      · rw [h, portions_nil, portions_nil]
      · rw [h]
    obtain ⟨l', h1, h2⟩ := read_short files l path q n mode content hc hm (hns n (by simp))
    rw [hsame] at h1 h2
    obtain ⟨f, hf⟩ := reads_short files path mode content hc hm ns
      (reads.drop (portions n 0 (content.drop q) reads).length) l'
      (q + (portions n 0 (content.drop q) reads).flatten.length)
      (fun k hk => hns k (by simp [hk]))
      (by
        rcases h1 with h1 | h1
        · exact .inl h1
        · rcases hl with h | h
          · left
            have : content.length ≤ q := List.drop_eq_nil_iff.mp h
            exact List.drop_eq_nil_of_le (by omega)
          · right
            rw [h1, h])
    refine ⟨f, ?_⟩
    rw [M.runList_cons h2 hf]
    simp only [shortReads, List.drop_drop]

/- ### What is overlaid -/

theorem overlay_length (ps : List (List Byte)) (memory : List Byte) :
    (ps.foldl (fun memory p => p ++ memory.drop p.length) memory).length ≤
      memory.length + ps.flatten.length := by
  induction ps generalizing memory with
  | nil => simp
  | cons p ps ih =>
    have := ih (p ++ memory.drop p.length)
    simp only [List.foldl_cons, List.flatten_cons, List.length_append, List.length_drop] at *
    omega

theorem overlay_short {a b : List Byte} (ps : List (List Byte)) (ha : a ≠ []) (hb : b ≠ []) :
    (overlaid (a :: b :: ps)).length < (a :: b :: ps).flatten.length := by
  have := overlay_length ps (b ++ a.drop b.length)
  have h1 := List.length_pos_iff.mpr ha
  have h2 := List.length_pos_iff.mpr hb
  simp only [overlaid, List.foldl_cons, List.drop_nil, List.append_nil, List.flatten_cons,
    List.length_append, List.length_drop] at *
  omega

theorem portions_ne (n : Nat) : ∀ (k total : Nat) (content : List Byte) (l : List Nat),
    content.length ≤ k → ∀ p ∈ portions n total content l, p ≠ [] := by
  intro k
  induction k with
  | zero =>
    intro total content l h p hp
    have hc : content = [] := List.eq_nil_of_length_eq_zero (by omega)
    rw [hc, portions_nil] at hp
    simp at hp
  | succ k ih =>
    intro total content l h p hp
    by_cases hn : n = 0
    · rw [hn, portions_zero] at hp
      simp at hp
    by_cases hc : content = []
    · rw [hc, portions_nil] at hp
      simp at hp
    rw [portions_cons l (by omega) hc] at hp
    have hh := handed_pos (n := n) l (by omega)
    have hl := List.length_pos_iff.mpr hc
    rcases List.mem_cons.mp hp with rfl | hp
    · apply List.ne_nil_of_length_pos
      rw [List.length_take]
      omega
    · split at hp
      · simp at hp
      · exact ih _ _ _ (by rw [List.length_drop]; omega) p hp

theorem overlay_le {k : Nat} (ps : List (List Byte)) (memory : List Byte)
    (h : ∀ p ∈ ps, p.length ≤ k) (hk : memory.length ≤ k) :
    (ps.foldl (fun memory p => p ++ memory.drop p.length) memory).length ≤ k := by
  induction ps generalizing memory with
  | nil => exact hk
  | cons p ps ih =>
    have := h p (by simp)
    exact ih _ (fun x hx => h x (by simp [hx])) (by
      simp only [List.length_append, List.length_drop]
      omega)

theorem portions_le (n : Nat) : ∀ (k total : Nat) (content : List Byte) (l : List Nat),
    content.length ≤ k → ∀ p ∈ portions n total content l, p.length ≤ n := by
  intro k
  induction k with
  | zero =>
    intro total content l h p hp
    have hc : content = [] := List.eq_nil_of_length_eq_zero (by omega)
    rw [hc, portions_nil] at hp
    simp at hp
  | succ k ih =>
    intro total content l h p hp
    by_cases hn : n = 0
    · rw [hn, portions_zero] at hp
      simp at hp
    by_cases hc : content = []
    · rw [hc, portions_nil] at hp
      simp at hp
    rw [portions_cons l (by omega) hc] at hp
    have hh := handed_pos (n := n) l (by omega)
    have hl := List.length_pos_iff.mpr hc
    rcases List.mem_cons.mp hp with rfl | hp
    · rw [List.length_take]
      omega
    · split at hp
      · simp at hp
      · exact ih _ _ _ (by rw [List.length_drop]; omega) p hp

/- ### The buffer -/

/-- A loaded buffer of `cap` bytes with `data`, which is said to have `size` bytes. -/
structure Claims (data : List Byte) (size p : Nat) (f : FileObj) : Prop where
  data : f.res.buf.data = data
  size : f.res.buf.size = size
  position : f.res.buf.position = p
  clean : f.res.buf.readDirty = false
  mode : f.mode ≠ .writeOnly
  there : f.res.buf.data ≠ []

theorem Claims.read {data : List Byte} {size p n : Nat} {f : FileObj} (h : Claims data size p f)
    (hs : p + n ≤ size) (hd : p + n ≤ data.length) :
    ∃ f', FileObj.read .unix n f = (.ok ⟨(data.drop p).take n, n⟩, f')
      ∧ Claims data size (p + n) f' := by
  obtain ⟨h1, h2, h3, h4, h5, h6⟩ := h
  have hcap : f.res.buf.capacity > 0 := by
    simp only [IoBuffer.capacity]
    exact List.length_pos_iff.mpr h6
  have e : Res.read FilePlatform.unix.readRaw n f.res =
      (.ok ⟨(data.drop p).take n, n⟩,
        { f.res with buf := { f.res.buf with position := p + n } }) := by
    simp only [Res.read]
    rw [M.bind_ok (M.get_apply _), if_pos hcap]
    simp only [Res.readBuffered]
    rw [M.bind_ok (M.get_apply _), if_neg (by simp [h4])]
    simp only [Res.readLoaded]
    rw [M.bind_ok (M.get_apply _), if_neg (by omega)]
    have hb : Res.bufRead n f.res = (.ok ((data.drop p).take n),
        { f.res with buf := { f.res.buf with position := p + n } }) := by
      have : f.res.buf.read n = .ok ((data.drop p).take n,
          { f.res.buf with position := p + n }) := by
        have g1 : ¬ f.res.buf.position + n > f.res.buf.size := by omega
        have g2 : ¬ p + n > data.length := by omega
        simp only [IoBuffer.read, if_neg g1]
        rw [if_neg (fun g => g1 g.1), h1, h3, if_neg g2]
      simp only [Res.bufRead, this]
    rw [M.bind_ok hb]
    have g3 : ((data.drop p).take n).length = n := by
      rw [List.length_take, List.length_drop]
      omega
    rw [g3]
    rfl
  refine ⟨{ f with res := { f.res with buf := { f.res.buf with position := p + n } } }, ?_,
    h1, h2, rfl, h4, h5, h6⟩
  rw [FileObj.read_eq h5]
  simp only [FileObj.onRes, e]

theorem Claims.overrun {data : List Byte} {size p n : Nat} {f : FileObj} (h : Claims data size p f)
    (hp : p ≤ data.length) (hs : data.length < size) (hd : data.length < p + n) :
    (FileObj.read .unix n f).1 = .ub := by
  obtain ⟨h1, h2, h3, h4, h5, h6⟩ := h
  have hcap : f.res.buf.capacity > 0 := by
    simp only [IoBuffer.capacity]
    exact List.length_pos_iff.mpr h6
  have hb : ∀ k, data.length < p + k → p + k ≤ size → Res.bufRead k f.res = (.ub, f.res) := by
    intro k hk hk'
    have : f.res.buf.read k = .ub := by
      have g1 : ¬ f.res.buf.position + k > f.res.buf.size := by omega
      have g2 : p + k > data.length := by omega
      simp only [IoBuffer.read, if_neg g1]
      rw [if_neg (fun g => g1 g.1), h1, h3, if_pos g2]
    simp only [Res.bufRead, this]
  have e : (Res.read FilePlatform.unix.readRaw n f.res).1 = .ub := by
    simp only [Res.read]
    rw [M.bind_ok (M.get_apply _), if_pos hcap]
    simp only [Res.readBuffered]
    rw [M.bind_ok (M.get_apply _), if_neg (by simp [h4])]
    simp only [Res.readLoaded]
    rw [M.bind_ok (M.get_apply _), h2, h3]
    by_cases hover : p + n > size
    · rw [if_pos hover, if_neg (by omega), M.bind_apply]
      simp only [Res.drain]
      rw [if_pos (by omega), hb _ (by omega) (by omega)]
    · rw [if_neg hover, M.bind_apply, hb _ hd (by omega)]
  rw [FileObj.read_eq h5]
  simp only [FileObj.onRes, e]

theorem Claims.reads {data : List Byte} {size : Nat} : ∀ (ns : List Nat) {p : Nat} {f : FileObj},
    Claims data size p f → p + ns.sum ≤ size → p + ns.sum ≤ data.length →
    ∃ outs f', M.runList (FileObj.read .unix) ns f = (.ok outs, f')
      ∧ (outs.map (·.bytes)).flatten = (data.drop p).take ns.sum
      ∧ Claims data size (p + ns.sum) f'
  | [], p, f, h, _, _ => ⟨[], f, rfl, by simp, by simpa using h⟩
  | n :: ns, p, f, h, hs, hd => by
    simp only [List.sum_cons] at hs hd
    obtain ⟨f', e, h'⟩ := h.read (n := n) (by omega) (by omega)
    obtain ⟨outs, f'', e', hb, h''⟩ := Claims.reads ns h' (by omega) (by omega)
    refine ⟨_, f'', M.runList_cons e e', ?_, ?_⟩
    · simp only [List.map_cons, List.flatten_cons, hb, List.sum_cons, List.take_add,
        List.drop_drop]
    · simpa [Nat.add_assoc] using h''

/-- What a fresh file with a buffer is once the first page is loaded. -/
theorem read_fresh (cap : Nat) (files : Nat → Option (List Byte)) (reads : List Nat) (path : Nat)
    (mode : AccessMode) (content : List Byte) (hc : files path = some content)
    (hm : mode ≠ .writeOnly) (h0 : 0 < cap) (hcap : cap ≤ FileDev.ssizeMax) :
    ∃ g, (∀ n, FileObj.read .unix n (freshFile .unix cap files reads path mode) =
        FileObj.read .unix n g)
      ∧ Claims ((overlaid (portions cap 0 content reads) ++ List.replicate cap 0).take cap)
        (portions cap 0 content reads).flatten.length 0 g := by
  obtain ⟨l', -, h2⟩ := readBlocks_short files reads path 0 cap mode content hc hm hcap
  rw [List.drop_zero, Nat.zero_add] at h2
  have hov : (overlaid (portions cap 0 content reads)).length ≤ cap :=
    overlay_le _ [] (portions_le cap content.length 0 content reads (Nat.le_refl _)) (by simp)
  generalize (portions cap 0 content reads).flatten.length = size at *
  generalize overlaid (portions cap 0 content reads) = memory at *
  have hraw : FileDev.readRaw cap .fillBuffer ⟨files, some ⟨path, 0, mode⟩, 0, reads⟩ =
      (.ok ⟨memory, size⟩, ⟨files, some ⟨path, 0, mode⟩, size, l'⟩) := by
    have hs : FileDev.skipFill FileDev.seek .fillBuffer
        ⟨files, some ⟨path, 0, mode⟩, 0, reads⟩ =
        (.ok (), ⟨files, some ⟨path, 0, mode⟩, 0, reads⟩) := by
      simp only [FileDev.skipFill]
      rw [M.bind_ok (M.get_apply _), if_neg (by simp)]
      rfl
    have hback := FileDev.seeks_unix.current (-(size : Int)) files path size mode 0 l' (by omega)
    rw [show ((size : Int) + -(size : Int)).toNat = 0 by omega] at hback
    have hnote : FileDev.noteFill FileDev.seek .fillBuffer size
        ⟨files, some ⟨path, size, mode⟩, 0, l'⟩ =
        (.ok (), ⟨files, some ⟨path, 0, mode⟩, size, l'⟩) := by
      simp only [FileDev.noteFill, if_true]
      rw [M.bind_ok (a := ()) (by simp only [Res.goBack, M.noexcept_apply]; rw [hback]; rfl)]
      rfl
    simp only [FileDev.readRaw, M.noexcept_apply]
    rw [M.bind_ok hs, M.bind_ok h2, M.bind_ok hnote]
    rfl
  have hdata : (memory ++ List.replicate cap 0).take cap =
      memory.take cap ++ (List.replicate cap (0 : Byte)).drop memory.length := by
    rw [List.take_append, List.take_replicate, List.drop_replicate, Nat.min_eq_left (by omega)]
  let b : IoBuffer := ⟨(memory ++ List.replicate cap 0).take cap, size, 0, false, false⟩
  have hlen : b.data.length = cap := by simp [b]
  have hfill : Res.fill FilePlatform.unix.readRaw
      (⟨IoBuffer.make cap, ⟨files, some ⟨path, 0, mode⟩, 0, reads⟩⟩ : Res FileDev) =
      (.ok size, ⟨b, ⟨files, some ⟨path, 0, mode⟩, size, l'⟩⟩) := by
    have hd : Res.onDev (FilePlatform.unix.readRaw cap .fillBuffer)
        (⟨IoBuffer.make cap, ⟨files, some ⟨path, 0, mode⟩, 0, reads⟩⟩ : Res FileDev) =
        (.ok ⟨memory, size⟩, ⟨IoBuffer.make cap, ⟨files, some ⟨path, 0, mode⟩, size, l'⟩⟩) := by
      simp only [Res.onDev, FilePlatform.readRaw, hraw]
    simp only [Res.fill]
    rw [M.bind_ok (M.get_apply _)]
    simp only [IoBuffer.capacity, IoBuffer.make, List.length_replicate] at hd ⊢
    rw [M.bind_ok hd, M.bind_ok (M.modify_apply _ _), M.bind_ok (M.modify_apply _ _),
      M.bind_ok (M.modify_apply _ _)]
    simp only [IoBuffer.setReadDirty, M.pure_apply, b, hdata, List.length_replicate]
  refine ⟨⟨⟨b, ⟨files, some ⟨path, 0, mode⟩, size, l'⟩⟩, some path, mode⟩, fun n => ?_,
    rfl, rfl, rfl, rfl, hm, List.ne_nil_of_length_pos (by simp only [hlen]; exact h0)⟩
  rw [freshFile_eq _ cap files reads path mode content hc, FileObj.read_eq (by exact hm),
    FileObj.read_eq (by exact hm)]
  have e : Res.read FilePlatform.unix.readRaw n
      (⟨IoBuffer.make cap, ⟨files, some ⟨path, 0, mode⟩, 0, reads⟩⟩ : Res FileDev) =
      Res.read FilePlatform.unix.readRaw n
        ⟨b, ⟨files, some ⟨path, 0, mode⟩, size, l'⟩⟩ := by
    simp only [Res.read]
    rw [M.bind_ok (M.get_apply _), M.bind_ok (M.get_apply _),
      if_pos (by simpa [IoBuffer.capacity, IoBuffer.make] using h0),
      if_pos (by simp only [IoBuffer.capacity, hlen]; exact h0)]
    simp only [Res.readBuffered]
    rw [M.bind_ok (M.get_apply _), M.bind_ok (M.get_apply _),
      if_pos (by rfl), if_neg (by simp [b]), M.bind_ok hfill]
  simp only [FileObj.onRes, e]

end Cmp
