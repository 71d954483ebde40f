import Mathlib.Data.List.Forall2
import Verif.Lemmas.Live
import Verif.Props.Stream

/-!
# C129: the output of a command on the terminal

* `C129_screen_partial`: when a command has ended, the terminal shows all of its output that can be read, in order, line by line
  in the colour of the stream; `C129_text`: all of it, if it is UTF-8.
* `C129_reading`: how output is read is determined by its bytes.
* `C129_hidden`: nothing of it is shown if the user asked for that.
* `C129_chunked_violated`: of jobs with `use-chunked-io`, the user sees nothing but the ASCII characters.
* `C129_numbered_partial`: the other printer shows every line with its number in its stream, as long as all lines can be read;
  `C129_stopped`: it is silent from the first that cannot.
* `C129_numbered_violated`: it shows nothing of jobs with `use-chunked-io`.
-/

namespace Verif.Live

open Verif.Checksum (Str)
open Verif.Extcmd (Stream Ev Bytes Cfg St Reachable Quiet Lines told lastEv)
open Verif.Flat (Begins)
open Verif.Stream (encode encodeChar encodeChar_ne encode_cons encode_append)

/-! ## Specification -/

/-- The reading of bytes that leaves out what is no UTF-8: whole characters are read; the longest piece that could be the
beginning of a character but does not go on like one is left out, and so is a byte that begins no character. -/
inductive Skims : List Nat → Str → Prop
  | nil : Skims [] []
  | char (c : Char) {r t} : Skims r t → Skims (encodeChar c ++ r) (c :: t)
  | part (m : List Nat) {r t} : m ≠ [] → Begins m → (∀ c, m ≠ encodeChar c) →
      (∀ b r', r = b :: r' → ¬ Begins (m ++ [b])) → Skims r t → Skims (m ++ r) t
  | byte (b : Nat) {r t} : ¬ Begins [b] → Skims r t → Skims (b :: r) t

/-- The numbers of bytes. -/
def nums (d : Bytes) : List Nat := d.map (·.val)

/-- What precedes and follows a piece of output: green for the standard output, red for the other. -/
def before (color : Bool) : Stream → Str
  | .out => if color then "\x1b[32m\x1b[1m".toList else []
  | .err => if color then "\x1b[31m\x1b[1m".toList else []

def after (color : Bool) : Str := if color then "\x1b[0m".toList else []

/-- The lines above and below the output. -/
def top (color : Bool) : Stream → Str
  | .out => (if color then "\x1b[30m\x1b[1m".toList else []) ++
      "... 8< -------------------------------------------------------------------------".toList ++ after color ++ ['\n']
  | .err => []

def bottom (color : Bool) : Stream → Str
  | .out => (if color then "\x1b[30m\x1b[1m".toList else []) ++
      "------------------------------------------------------------------------- >8 ---".toList ++ after color ++ ['\n']
  | .err => []

/-- Is it UTF-8? -/
def Readable (d : Bytes) : Prop := ∃ t, nums d = encode t

/-- The name of a stream. -/
def streamName : Stream → Str
  | .out => "stdout".toList
  | .err => "stderr".toList

/-- The line that shows a text: it tells the job, the stream and the number of the line in it, with at least five digits; white
space at the end of the text is left out. -/
def Shows (job : Str) (s : Stream) (n : Nat) (t line : Str) : Prop :=
  ∃ body white number : Str, t = body ++ white ∧ (∀ c ∈ white, Text.isSpace c = true) ∧
    (∀ c, body.getLast? = some c → Text.isSpace c = false) ∧
    (∃ k, number = List.replicate k '0' ++ (toString n).toList) ∧ number.length = max 5 (toString n).toList.length ∧
    line = "(job ".toList ++ job ++ ", <".toList ++ streamName s ++ ":".toList ++ number ++ ">) ".toList ++ body

/-! ## Reading -/

theorem skims_encode (t : Str) : ∀ {r u}, Skims r u → Skims (encode t ++ r) (t ++ u) := by
  induction t with
  | nil => exact fun h => h
  | cons c t ih =>
    intro r u h
    rw [encode_cons, List.append_assoc]
    exact .char c (ih h)

theorem skims_unique {bs : List Nat} {t : Str} (h : Skims bs t) : ∀ {t'}, Skims bs t' → t = t' := by
  induction h with
  | nil =>
    intro t' h'
    generalize hb : ([] : List Nat) = bs at h'
    cases h' with
    | nil => rfl
    | char c h => exact absurd (List.append_eq_nil_iff.1 hb.symm).1 (encodeChar_ne c)
    | part m hm => exact absurd (List.append_eq_nil_iff.1 hb.symm).1 hm
    | byte b => cases hb
  | @char c r t _ ih =>
    intro t' h'
    generalize hb : encodeChar c ++ r = bs at h'
    cases h' with
    | nil => exact absurd (List.append_eq_nil_iff.1 hb).1 (encodeChar_ne c)
    | @char d r' _ h' =>
      have : c = d := by
        rcases List.append_eq_append_iff.1 hb with ⟨u, hu, _⟩ | ⟨u, hu, _⟩
        · exact (Flat.prefix_free hu).1
        · exact (Flat.prefix_free hu).1.symm
      subst this
      rw [ih ((List.append_cancel_left hb) ▸ h')]
    | @part m r' _ hm hs hne hn h' =>
      exfalso
      rcases List.append_eq_append_iff.1 hb with ⟨u, hu, _⟩ | ⟨u, hu, hr⟩
      · obtain ⟨d, s, hd⟩ := hs
        have := Flat.prefix_free (c := c) (d := d) (s := u ++ s) (by rw [hd, hu, List.append_assoc])
        rw [(List.append_eq_nil_iff.1 this.2).1, List.append_nil] at hu
        exact hne c hu
      · cases u with
        | nil => exact hne c (by rw [hu, List.append_nil])
        | cons x xs => exact hn x _ hr ⟨c, xs, by rw [hu]; simp⟩
    | @byte b r' _ hn h' =>
      exfalso
      cases he : encodeChar c with
      | nil => exact encodeChar_ne c he
      | cons x xs =>
        rw [he, List.cons_append] at hb
        cases hb
        exact hn ⟨c, xs, he⟩
  | @part m r t hm hs hne hn _ ih =>
    intro t' h'
    generalize hb : m ++ r = bs at h'
    cases h' with
    | nil => exact absurd (List.append_eq_nil_iff.1 hb).1 hm
    | @char c r' _ h' =>
      exfalso
      rcases List.append_eq_append_iff.1 hb.symm with ⟨u, hu, _⟩ | ⟨u, hu, hr⟩
      · obtain ⟨d, s, hd⟩ := hs
        have := Flat.prefix_free (c := c) (d := d) (s := u ++ s) (by rw [hd, hu, List.append_assoc])
        rw [(List.append_eq_nil_iff.1 this.2).1, List.append_nil] at hu
        exact hne c hu
      · cases u with
        | nil => exact hne c (by rw [hu, List.append_nil])
        | cons x xs => exact hn x _ hr ⟨c, xs, by rw [hu]; simp⟩
    | @part m' r' _ hm' hs' hne' hn' h' =>
      have : m = m' := by
        rcases List.append_eq_append_iff.1 hb with ⟨u, hu, hr⟩ | ⟨u, hu, hr⟩
        · cases u with
          | nil => rw [hu, List.append_nil]
          | cons x xs => exact absurd (Flat.begins_left (s := xs) (by rw [List.append_assoc]; exact hu ▸ hs')) (hn x _ hr)
        · cases u with
          | nil => rw [hu, List.append_nil]
          | cons x xs => exact absurd (Flat.begins_left (s := xs) (by rw [List.append_assoc]; exact hu ▸ hs)) (hn' x _ hr)
      subst this
      rw [ih ((List.append_cancel_left hb) ▸ h')]
    | @byte b r' _ hn' h' =>
      exfalso
      cases m with
      | nil => exact hm rfl
      | cons x xs =>
        rw [List.cons_append] at hb
        cases hb
        exact hn' (Flat.begins_left (s := xs) hs)
  | @byte b r t hn _ ih =>
    intro t' h'
    generalize hb : b :: r = bs at h'
    cases h' with
    | nil => cases hb
    | @char c r' _ h' =>
      exfalso
      cases he : encodeChar c with
      | nil => exact encodeChar_ne c he
      | cons x xs =>
        rw [he, List.cons_append] at hb
        cases hb
        exact hn ⟨c, xs, he⟩
    | @part m r' _ hm hs hne hn' h' =>
      exfalso
      cases m with
      | nil => exact hm rfl
      | cons x xs =>
        rw [List.cons_append] at hb
        cases hb
        exact hn (Flat.begins_left (s := xs) hs)
    | @byte b' r' _ hn' h' =>
      cases hb
      rw [ih h']

theorem skipAll_skims (bs : List Nat) : Skims bs (skipAll bs) := by
  induction bs using Flat.steps with
  | h0 bs h =>
    rw [skipAll_eq, h]
    have hs := Flat.first_spec bs
    rw [h] at hs
    by_cases hb : bs = []
    · subst hb
      exact .nil
    · rcases hs with hs | ⟨hp, hne⟩
      · exact absurd hs hb
      · have := Skims.part bs (r := []) hb (Flat.begins_prefix.1 hp) hne nofun .nil
        rwa [List.append_nil] at this
  | h1 bs o n h ih =>
    have hs := Flat.first_spec bs
    rw [h] at hs
    rw [skipAll_eq, h]
    cases o with
    | none =>
      dsimp only
      rcases hs with ⟨rfl, b, r, rfl, hn⟩ | ⟨m, b, r, rfl, rfl, hm, hp, hne, hn⟩
      · exact .byte b (fun ⟨c, s, hc⟩ => hn c ⟨s, hc.symm⟩) ih
      · rw [List.drop_left] at ih ⊢
        refine .part m hm (Flat.begins_prefix.1 hp) hne (fun b' r' he => ?_) ih
        cases he
        exact fun ⟨c, s, hc⟩ => hn c ⟨s, hc.symm⟩
    | some c =>
      dsimp only
      obtain ⟨r, rfl, rfl⟩ := hs
      rw [List.drop_left] at ih ⊢
      exact .char c ih

/-- Lines can be read one by one. -/
theorem skims_append {a : List Nat} {t : Str} (h : Skims a t) : (a = [] ∨ a.getLast? = some 10) → ∀ {b u}, Skims b u →
    Skims (a ++ b) (t ++ u) := by
  have tail : ∀ {m r : List Nat}, (m ++ r = [] ∨ (m ++ r).getLast? = some 10) → r = [] ∨ r.getLast? = some 10 := by
    intro m r h
    by_cases hr : r = []
    · exact .inl hr
    · right
      rcases h with h | h
      · exact absurd (List.append_eq_nil_iff.1 h).2 hr
      · rwa [List.getLast?_append_of_ne_nil _ hr] at h
  induction h with
  | nil => exact fun _ _ _ h => h
  | char c _ ih =>
    intro he b u hb
    rw [List.append_assoc]
    exact .char c (ih (tail he) hb)
  | @part m r t hm hs hne hn _ ih =>
    intro he b u hb
    rw [List.append_assoc]
    refine .part m hm hs hne (fun x r' hx => ?_) (ih (tail he) hb)
    cases r with
    | cons y r => cases hx; exact hn _ _ rfl
    | nil =>
      exfalso
      rw [List.append_nil] at he
      rcases he with he | he
      · exact hm he
      · obtain ⟨c, s, hc⟩ := hs
        have h10 : 10 ∈ m := List.mem_of_getLast? he
        have := newline_alone (c := c) (by rw [hc]; exact List.mem_append_left _ h10)
        rw [this] at hc
        cases m with
        | nil => exact hm rfl
        | cons x xs =>
          simp only [List.cons_append, List.cons.injEq] at hc
          obtain ⟨rfl, hx⟩ := hc
          obtain ⟨rfl, _⟩ := List.append_eq_nil_iff.1 hx.symm
          exact hne c this.symm
  | byte x hn _ ih =>
    intro he b u hb
    exact .byte x hn (ih (tail (m := [x]) he) hb)

/-- **C129**: how output is read is determined by its bytes, and UTF-8 is read as the text that it is. -/
theorem C129_reading (bs : List Nat) :
    (∃ t, Skims bs t ∧ ∀ t', Skims bs t' → t' = t) ∧ ∀ t, bs = encode t → Skims bs t := by
  refine ⟨⟨_, skipAll_skims bs, fun t' h => skims_unique h (skipAll_skims bs)⟩, ?_⟩
  rintro t rfl
  have := skims_encode t Skims.nil
  rwa [List.append_nil, List.append_nil] at this

theorem skims_lines {w : Bytes} {ls : List Bytes} (h : Lines w ls) : Skims (nums w) (ls.map ignore).flatten := by
  obtain ⟨rfl, fs, r, rfl, hf, hr⟩ := h
  induction fs with
  | nil =>
    rcases hr with rfl | ⟨l, rfl, _, _⟩
    · exact .nil
    · simp only [List.nil_append, List.map_cons, List.map_nil, List.flatten_cons, List.flatten_nil, List.append_nil, ignore_eq]
      exact skipAll_skims _
  | cons l fs ih =>
    have e : nums (l :: fs ++ r).flatten = nums l ++ nums (fs ++ r).flatten := by simp [nums]
    rw [e, List.cons_append, List.map_cons, List.flatten_cons, ignore_eq]
    refine skims_append (skipAll_skims _) (.inr ?_) (ih fun l hl => hf l (by simp [hl]))
    obtain ⟨m, _, rfl⟩ := hf l (by simp)
    show ((m ++ [10]).map fun x : Fin 256 => x.val).getLast? = some 10
    rw [List.map_append, List.map_cons, List.map_nil, List.getLast?_concat]
    rfl

/-! ## The screen -/

/-- What is printed to a stream about one event. -/
theorem screen_flatMap (u : UI) (s : Stream) (log : List Ev) :
    screen u s log = log.flatMap fun e => (((printed u e).filter fun p => p.1 = s).map (·.2)).flatten := by
  unfold screen
  induction log with
  | nil => rfl
  | cons e log ih =>
    simp only [List.flatMap_cons, List.filter_append, List.map_append, List.flatten_append] at ih ⊢
    rw [ih]

theorem screen_shown (u : UI) (hu : u.showing = true) (s : Stream) (rc : Int) (b : Bool) (m : List Ev)
    (hm : ∀ e ∈ m, e.Mid b) :
    screen u s (.begin :: (m ++ [lastEv false rc])) = top u.color s ++
      ((told s (.begin :: (m ++ [lastEv false rc]))).map fun d => before u.color s ++ ignore d ++ after u.color).flatten ++
      bottom u.color s := by
  have hb : (((printed u .begin).filter fun p => p.1 = s).map (·.2)).flatten = top u.color s := by
    obtain ⟨c, w⟩ := u
    subst hu
    cases s <;> cases c <;> decide
  have he : (((printed u (lastEv false rc)).filter fun p => p.1 = s).map (·.2)).flatten = bottom u.color s := by
    have e : printed u (lastEv false rc) = printed u (.ended 0) := by unfold lastEv; split <;> rfl
    rw [e]
    obtain ⟨c, w⟩ := u
    subst hu
    cases s <;> cases c <;> decide
  have ht : Ev.data s (lastEv false rc) = none := by unfold lastEv; split <;> rfl
  have hq : ∀ t d, (((printed u (.line t d)).filter fun p => p.1 = s).map (·.2)).flatten =
      if t = s then before u.color s ++ ignore d ++ after u.color else [] := by
    intro t d
    obtain ⟨c, w⟩ := u
    subst hu
    generalize hi : ignore d = i
    cases t <;> cases s <;> cases c <;> simp [printed, paint, sgr, before, after, hi]
  have hc : ∀ t d, printed u (.chunk t d) = printed u (.line t d) := fun _ _ => rfl
  rw [screen_flatMap, List.flatMap_cons, hb, List.flatMap_append, List.flatMap_cons, List.flatMap_nil, List.append_nil, he,
    ← List.append_assoc]
  congr 2
  have hb' : Ev.data s .begin = none := rfl
  simp only [told, List.filterMap_cons, hb', List.filterMap_append, List.filterMap_nil, ht, List.append_nil]
  induction m with
  | nil => rfl
  | cons e m ih =>
    rw [List.flatMap_cons, ih fun e he => hm e (by simp [he])]
    rcases hm e (by simp) with rfl | ⟨_, t, d, rfl⟩ | ⟨_, t, d, rfl⟩
    · rfl
    · rw [hq, List.filterMap_cons]
      by_cases h : t = s
      · simp [Ev.data, h]
      · simp [Ev.data, h]
    · rw [hc, hq, List.filterMap_cons]
      by_cases h : t = s
      · simp [Ev.data, h]
      · simp [Ev.data, h]

/-- **C129**, partial: when a command has ended, the terminal shows all of its output that can be read, and nothing else: between
the two lines that frame it, in order, line by line in the colour of the stream. Full statement: for all jobs; missing are those
with `use-chunked-io` (`C129_chunked_violated`) and the controller for sudo (`C44_sudo_violated`). -/
theorem C129_screen_partial (c : Cfg) (hs : c.sudo = false) (hq : Quiet c) (hc : c.chunked = false) (st : St)
    (hr : Reachable c st) (rc : Int) (hp : st.pc = .returned rc) (u : UI) (hu : u.showing = true) (s : Stream) :
    ∃ ls : List Bytes, ∃ ts : List Str, Lines (st.wrote s) ls ∧ List.Forall₂ (fun l t => Skims (nums l) t) ls ts ∧
      Skims (nums (st.wrote s)) ts.flatten ∧
      screen u s st.log = top u.color s ++ (ts.map fun t => before u.color s ++ t ++ after u.color).flatten ++
        bottom u.color s := by
  obtain ⟨_, _, ⟨m, hm, hmid⟩, h⟩ := Extcmd.C44_delivery_partial c hs hq st hr rc hp
  have hl := (h s).2.1 hc
  refine ⟨_, (told s st.log).map ignore, hl, ?_, skims_lines hl, ?_⟩
  · generalize told s st.log = ls
    induction ls with
    | nil => exact .nil
    | cons l ls ih => exact .cons (by rw [ignore_eq]; exact skipAll_skims _) ih
  · rw [hm, screen_shown u hu s rc c.chunked m hmid, List.map_map]
    rfl

/-- **C129**: if the output is UTF-8 and there are no colours, the terminal shows exactly its text. -/
theorem C129_text (c : Cfg) (hs : c.sudo = false) (hq : Quiet c) (hc : c.chunked = false) (st : St)
    (hr : Reachable c st) (rc : Int) (hp : st.pc = .returned rc) (u : UI) (hu : u.showing = true) (hn : u.color = false)
    (s : Stream) (t : Str) (hw : nums (st.wrote s) = encode t) :
    screen u s st.log = top false s ++ t ++ bottom false s := by
  obtain ⟨ls, ts, _, _, h1, h2⟩ := C129_screen_partial c hs hq hc st hr rc hp u hu s
  have := skims_unique h1 ((C129_reading _).2 t hw)
  rw [h2, hn, ← this]
  have e : ts.map (fun t => before false s ++ t ++ after false) = ts := by
    have : (fun t : Str => before false s ++ t ++ after false) = id := by
      funext t
      cases s <;> simp [before, after]
    rw [this, List.map_id]
  rw [e]

/-- **C129**: if the output is to be hidden, the terminal shows a note and nothing of the output. -/
theorem C129_hidden (c : Cfg) (st : St) (hr : Reachable c st) (u : UI) (hu : u.showing = false) (hb : st.log ≠ []) :
    screen u .err st.log = [] ∧
    screen u .out st.log = (if u.color then "\x1b[30m\x1b[1m".toList else []) ++ "(Command output hidden)".toList ++
      after u.color ++ ['\n'] := by
  have quiet : ∀ s (m : List Ev), (∀ e ∈ m, e.Mid c.chunked) → screen u s m = [] := by
    intro s m hm
    rw [screen_flatMap, List.flatMap_eq_nil_iff]
    intro e he
    rcases hm e he with rfl | ⟨_, t, d, rfl⟩ | ⟨_, t, d, rfl⟩
    · rfl
    · simp [printed, hu]
    · simp [printed, hu]
  have last : ∀ s b rc, screen u s [lastEv b rc] = [] := by
    intro s b rc
    unfold lastEv
    split <;> simp [screen, printed, hu]
  have split' : ∀ s (a b : List Ev), screen u s (a ++ b) = screen u s a ++ screen u s b := by
    intro s a b
    rw [screen_flatMap, screen_flatMap, screen_flatMap, List.flatMap_append]
  have first : ∀ s, screen u s [.begin] = match s with
      | .err => []
      | .out => (if u.color then "\x1b[30m\x1b[1m".toList else []) ++ "(Command output hidden)".toList ++ after u.color ++ ['\n'] := by
    intro s
    obtain ⟨cl, w⟩ := u
    subst hu
    cases s <;> cases cl <;> decide
  have key : ∀ s, screen u s st.log = screen u s [.begin] := by
    intro s
    rcases Extcmd.C44_order c st hr with h | ⟨m, hm, h | ⟨rc, _, h⟩⟩
    · exact absurd h hb
    · rw [h, ← List.singleton_append, split', quiet s m hm, List.append_nil]
    · rw [h, ← List.singleton_append, split', split', quiet s m hm, last, List.append_nil, List.append_nil]
  exact ⟨by rw [key, first], by rw [key, first]⟩

/-! ### One byte at a time -/

theorem ignore_byte (b : Fin 256) : ignore [b] = if b.val < 0x80 then [Char.ofNat b.val] else [] := by
  unfold ignore
  simp only [List.length_cons, List.length_nil, List.map_cons, List.map_nil, skip]
  by_cases h : b.val < 0x80
  · have : Flat.first [b.val] = some (some (Char.ofNat b.val), 1) := by simp [Flat.first, h]
    rw [this, if_pos h]
  · rw [if_neg h]
    have : Flat.first [b.val] = none ∨ ∃ n, Flat.first [b.val] = some (none, n) := by
      simp only [Flat.first, if_neg h]
      by_cases h1 : b.val < 0xC2
      · exact .inr ⟨1, by simp [h1]⟩
      · by_cases h2 : b.val < 0xE0
        · exact .inl (by simp [h1, h2])
        · by_cases h3 : b.val < 0xF0
          · exact .inl (by simp [h1, h2, h3])
          · by_cases h4 : b.val < 0xF5
            · exact .inl (by simp [h1, h2, h3, h4])
            · exact .inr ⟨1, by simp [h1, h2, h3, h4]⟩
    rcases this with h | ⟨n, h⟩ <;> rw [h]

theorem ignore_bytes (w : Bytes) : ((w.map fun b => [b]).map ignore).flatten = Stream.asciiOnly (nums w) := by
  induction w with
  | nil => rfl
  | cons b w ih =>
    rw [List.map_cons, List.map_cons, List.flatten_cons, ih, ignore_byte]
    unfold Stream.asciiOnly nums
    by_cases h : b.val < 0x80
    · simp [h]
    · simp [h]

/-- **C129** does not hold for jobs with the flag `use-chunked-io`: whatever the command writes, the terminal shows nothing but the
ASCII characters of it; and there is such a command, one that writes an "é". -/
theorem C129_chunked_violated :
    (∀ (c : Cfg) (st : St) (rc : Int) (u : UI) (s : Stream) (t : Str), c.sudo = false → Quiet c → c.chunked = true →
      Reachable c st → st.pc = .returned rc → u.showing = true → u.color = false → nums (st.wrote s) = encode t →
      screen u s st.log = top false s ++ t.filter (fun x => decide (x.toNat < 0x80)) ++ bottom false s) ∧
    ∃ c st, c.sudo = false ∧ Quiet c ∧ c.chunked = true ∧ Reachable c st ∧ st.pc = .returned 0 ∧
      nums (st.wrote .out) = encode "é\n".toList := by
  constructor
  · intro c st rc u s t hs hq hc hr hp hu hn hw
    obtain ⟨_, _, ⟨m, hm, hmid⟩, h⟩ := Extcmd.C44_delivery_partial c hs hq st hr rc hp
    have hl := (h s).2.2 hc
    rw [hm, screen_shown u hu s rc c.chunked m hmid, ← hm, hl, hn]
    congr 2
    have : (fun d : Bytes => before false s ++ ignore d ++ after false) = ignore := by
      funext d
      cases s <;> simp [before, after]
    rw [this, ignore_bytes, hw, Stream.ascii_encode]
  · have h : ((Extcmd.run (Extcmd.plain true) (Extcmd.start ++ [.write .out [0xC3, 0xA9, 10]] ++ Extcmd.die 0 ++
        Extcmd.through .out ++ Extcmd.through .out ++ Extcmd.through .out ++ [.read .out, .read .err, .main false, .main false,
        .main false, .main false, .get, .main false, .main false]) Extcmd.init).map
        fun st => (st.pc, st.wrote .out)) = some (.returned 0, [0xC3, 0xA9, 10]) := by decide +kernel
    obtain ⟨st, h1, h2⟩ := Option.map_eq_some_iff.1 h
    simp only [Prod.mk.injEq] at h2
    exact ⟨Extcmd.plain true, st, rfl, Extcmd.quiet_plain _, rfl, ⟨_, h1⟩, h2.1, by rw [h2.2]; decide⟩

/-! ## Numbered lines -/

theorem decode_none {d : Bytes} (h : ¬ Readable d) : Stream.decode (nums d) = none := by
  cases hd : Stream.decode (nums d) with
  | none => rfl
  | some t => exact absurd ⟨t, (Stream.encode_decode _ _ hd).symm⟩ h

theorem decode_some {d : Bytes} {t : Str} (h : nums d = encode t) : Stream.decode (nums d) = some t := by
  rw [h, Stream.decode_encode]

/-- The printer after some lines that it could print. -/
def adv (p : Printer) (pre : List Ev) : Printer :=
  ⟨p.out + (told .out pre).length, p.err + (told .err pre).length, false⟩

/-- The number of the next line of a stream. -/
def Printer.next (p : Printer) : Stream → Nat
  | .out => p.out + 1
  | .err => p.err + 1

theorem five_spec (n : Nat) :
    (∃ k, five n = List.replicate k '0' ++ (toString n).toList) ∧ (five n).length = max 5 (toString n).toList.length := by
  refine ⟨⟨_, rfl⟩, ?_⟩
  unfold five
  rw [List.length_append, List.length_replicate]
  omega

theorem rstrip_spec (t : Str) : ∃ white, t = Text.rstrip t ++ white ∧ (∀ c ∈ white, Text.isSpace c = true) ∧
    ∀ c, (Text.rstrip t).getLast? = some c → Text.isSpace c = false := by
  refine ⟨(t.reverse.takeWhile Text.isSpace).reverse, ?_, ?_, ?_⟩
  · unfold Text.rstrip
    rw [← List.reverse_append, List.takeWhile_append_dropWhile, List.reverse_reverse]
  · intro c hc
    have := List.mem_reverse.1 hc
    clear hc
    revert this
    generalize t.reverse = l
    induction l with
    | nil => exact nofun
    | cons x l ih =>
      rw [List.takeWhile_cons]
      split
      · rename_i hx
        intro h
        rcases List.mem_cons.1 h with rfl | h
        · exact hx
        · exact ih h
      · exact nofun
  · intro c hc
    unfold Text.rstrip at hc
    rw [List.getLast?_reverse] at hc
    have := List.head?_dropWhile_not Text.isSpace t.reverse
    rw [hc] at this
    simpa using this

theorem onLine_ok {p : Printer} (hp : p.stopped = false) (job : Str) (s : Stream) {d : Bytes} {t : Str}
    (h : nums d = encode t) :
    (p.onLine job s d).1 = adv p [.line s d] ∧ ∃ line, (p.onLine job s d).2 = [line] ∧ Shows job s (p.next s) t line := by
  have hd := decode_some h
  unfold nums at hd
  obtain ⟨white, h1, h2, h3⟩ := rstrip_spec t
  obtain ⟨o, e, b⟩ := p
  subst hp
  unfold Printer.onLine
  rw [if_neg nofun, hd]
  cases s with
  | out => exact ⟨rfl, _, rfl, _, white, _, h1, h2, h3, (five_spec (o + 1)).1, (five_spec (o + 1)).2, rfl⟩
  | err => exact ⟨rfl, _, rfl, _, white, _, h1, h2, h3, (five_spec (e + 1)).1, (five_spec (e + 1)).2, rfl⟩

theorem stopped_silent (job : Str) (l : List Ev) : ∀ p : Printer, p.stopped = true → fallback job p l = [] := by
  induction l with
  | nil => exact fun _ _ => rfl
  | cons e l ih =>
    intro p hp
    cases e with
    | line s d =>
      simp only [fallback, Printer.onLine, if_pos hp, List.nil_append]
      exact ih p hp
    | _ => exact ih p hp

theorem told_cons (s : Stream) (e : Ev) (l : List Ev) : told s (e :: l) = told s [e] ++ told s l := by
  unfold told
  rw [← List.filterMap_append]
  rfl

theorem adv_cons (p : Printer) (e : Ev) (l : List Ev) : adv p (e :: l) = adv (adv p [e]) l := by
  unfold adv
  rw [told_cons .out, told_cons .err]
  simp only [List.length_append, Nat.add_assoc]

theorem fallback_append (job : Str) (post : List Ev) : ∀ (pre : List Ev) (p : Printer), p.stopped = false →
    (∀ s d, .chunk s d ∉ pre) → (∀ s d, .line s d ∈ pre → Readable d) →
    fallback job p (pre ++ post) = fallback job p pre ++ fallback job (adv p pre) post ∧
    (fallback job p pre).length = (told .out pre).length + (told .err pre).length := by
  intro pre
  induction pre with
  | nil =>
    intro p hp _ _
    obtain ⟨o, e, b⟩ := p
    subst hp
    exact ⟨rfl, rfl⟩
  | cons e pre ih =>
    intro p hp hch hrd
    have hch' := fun s d h => hch s d (List.mem_cons_of_mem _ h)
    have hrd' := fun s d h => hrd s d (List.mem_cons_of_mem _ h)
    rw [adv_cons]
    cases e with
    | line s d =>
      obtain ⟨t, ht⟩ := hrd s d (by simp)
      obtain ⟨h1, line, h2, _⟩ := onLine_ok hp job s ht
      obtain ⟨i1, i2⟩ := ih (adv p [.line s d]) rfl hch' hrd'
      simp only [List.cons_append, fallback, h1, h2, i1, List.nil_append, List.length_cons, true_and]
      rw [i2]
      cases s <;> simp [told, Ev.data] <;> omega
    | chunk s d => exact absurd (List.mem_cons_self ..) (hch s d)
    | _ =>
      obtain ⟨i1, i2⟩ := ih p hp hch' hrd'
      obtain ⟨o, e, b⟩ := p
      subst hp
      exact ⟨i1, i2⟩

/-- The lines come in the order of the output, each with its number in its stream. -/
theorem fallback_at (job : Str) (pre post : List Ev) (s : Stream) (d : Bytes) (hch : ∀ s d, .chunk s d ∉ pre)
    (hrd : ∀ s d, .line s d ∈ pre → Readable d) :
    (∀ t, nums d = encode t → ∃ line, Shows job s ((told s pre).length + 1) t line ∧
      fallback job Printer.new (pre ++ .line s d :: post) = fallback job Printer.new pre ++ line ::
        fallback job (adv Printer.new (pre ++ [.line s d])) post) ∧
    (¬ Readable d → fallback job Printer.new (pre ++ .line s d :: post) = fallback job Printer.new pre) := by
  have h := fallback_append job (.line s d :: post) pre Printer.new rfl hch hrd
  constructor
  · intro t ht
    obtain ⟨h1, line, h2, h3⟩ := onLine_ok (p := adv Printer.new pre) rfl job s ht
    refine ⟨line, ?_, ?_⟩
    · cases s <;> simpa [Printer.next, adv, Printer.new, Nat.add_comm] using h3
    · rw [h.1]
      simp only [fallback, h1, h2, List.cons_append, List.nil_append]
      have : adv Printer.new (pre ++ [.line s d]) = adv (adv Printer.new pre) [.line s d] := by
        unfold adv told
        simp only [List.filterMap_append, List.length_append, Nat.add_assoc]
      rw [this]
  · intro hn
    have hd := decode_none hn
    unfold nums at hd
    rw [h.1]
    simp only [fallback, Printer.onLine, adv, if_neg (nofun : ¬ false = true), hd, List.nil_append]
    rw [stopped_silent job post _ (by cases s <;> rfl), List.append_nil]

/-- A line of a text is a text. -/
theorem readable_split {t : Str} : ∀ {a b : List Nat}, encode t = a ++ b → (a = [] ∨ a.getLast? = some 10) →
    ∃ t1 t2, a = encode t1 ∧ b = encode t2 := by
  induction t with
  | nil =>
    intro a b h _
    obtain ⟨rfl, rfl⟩ := List.append_eq_nil_iff.1 h.symm
    exact ⟨[], [], rfl, rfl⟩
  | cons c t ih =>
    intro a b h ha
    rcases ha with rfl | ha
    · exact ⟨[], c :: t, rfl, h.symm⟩
    · rw [encode_cons] at h
      rcases List.append_eq_append_iff.1 h with ⟨u, hu, ht⟩ | ⟨u, hu, ht⟩
      · have : u = [] ∨ u.getLast? = some 10 := by
          by_cases h0 : u = []
          · exact .inl h0
          · rw [hu, List.getLast?_append_of_ne_nil _ h0] at ha
            exact .inr ha
        obtain ⟨t1, t2, h1, h2⟩ := ih ht this
        exact ⟨c :: t1, t2, by rw [hu, h1, encode_cons], h2⟩
      · have h10 : 10 ∈ a := List.mem_of_getLast? ha
        have hc := newline_alone (c := c) (by rw [hu]; exact List.mem_append_left _ h10)
        rw [hc] at hu
        cases a with
        | nil => cases ha
        | cons x xs =>
          simp only [List.cons_append, List.cons.injEq] at hu
          obtain ⟨rfl, hx⟩ := hu
          obtain ⟨rfl, rfl⟩ := List.append_eq_nil_iff.1 hx.symm
          exact ⟨[c], t, by simp [encode, hc], by simpa using ht⟩

theorem readable_lines {w : Bytes} {ls : List Bytes} (h : Lines w ls) : Readable w → ∀ l ∈ ls, Readable l := by
  obtain ⟨rfl, fs, r, rfl, hf, hr⟩ := h
  induction fs with
  | nil =>
    intro hw l hl
    rcases hr with rfl | ⟨l', rfl, _, _⟩
    · cases hl
    · simp only [List.nil_append, List.flatten_cons, List.flatten_nil, List.append_nil, List.mem_singleton] at hw hl
      rwa [hl]
  | cons x fs ih =>
    rintro ⟨t, ht⟩ l hl
    have e : nums (x :: fs ++ r).flatten = nums x ++ nums (fs ++ r).flatten := by simp [nums]
    rw [e] at ht
    have hx : (nums x).getLast? = some 10 := by
      obtain ⟨m, _, rfl⟩ := hf x (by simp)
      show ((m ++ [10]).map fun x : Fin 256 => x.val).getLast? = some 10
      rw [List.map_append, List.map_cons, List.map_nil, List.getLast?_concat]
      rfl
    obtain ⟨t1, t2, h1, h2⟩ := readable_split ht.symm (.inr hx)
    rcases List.mem_cons.1 hl with rfl | hl
    · exact ⟨t1, h1⟩
    · exact ih (fun l hl => hf l (by simp [hl])) ⟨t2, h2⟩ l hl

theorem told_mem {s : Stream} {d : Bytes} {log : List Ev} (h : .line s d ∈ log) : d ∈ told s log :=
  List.mem_filterMap.2 ⟨_, h, by simp [Ev.data]⟩

theorem no_chunks {c : Cfg} (hc : c.chunked = false) {st : St} (hr : Reachable c st) : ∀ s d, .chunk s d ∉ st.log := by
  have mid : ∀ (m : List Ev), (∀ e ∈ m, e.Mid c.chunked) → ∀ s d, .chunk s d ∉ m := by
    intro m hm s d h
    rcases hm _ h with h | ⟨_, _, _, h⟩ | ⟨h, _⟩
    · cases h
    · cases h
    · rw [hc] at h; cases h
  intro s d h
  have last : ∀ b rc, Ev.chunk s d ≠ lastEv b rc := by
    intro b rc
    unfold lastEv
    split <;> exact nofun
  rcases Extcmd.C44_order c st hr with h' | ⟨m, hm, h' | ⟨rc, _, h'⟩⟩ <;> rw [h'] at h
  · cases h
  · exact mid m hm s d (by simpa using h)
  · simp only [List.mem_cons, reduceCtorEq, List.mem_append, List.not_mem_nil, or_false, false_or] at h
    rcases h with h | h
    · exact mid m hm s d h
    · exact last _ _ h

theorem told_split {s : Stream} : ∀ {log : List Ev} {i : Nat} {d : Bytes}, (∀ s d, .chunk s d ∉ log) →
    (told s log)[i]? = some d → ∃ pre post, log = pre ++ .line s d :: post ∧ (told s pre).length = i := by
  intro log
  induction log with
  | nil => intro i d _ h; simp [told] at h
  | cons e log ih =>
    intro i d hch h
    have hch' := fun s d h => hch s d (List.mem_cons_of_mem _ h)
    rw [told_cons] at h
    have other : told s [e] = [] → ∃ pre post, e :: log = pre ++ .line s d :: post ∧ (told s pre).length = i := by
      intro h0
      rw [h0, List.nil_append] at h
      obtain ⟨pre, post, rfl, h2⟩ := ih hch' h
      exact ⟨e :: pre, post, rfl, by rw [told_cons, h0]; exact h2⟩
    cases e with
    | line t d' =>
      by_cases ht : t = s
      · subst ht
        have h1 : told t [.line t d'] = [d'] := by simp [told, Ev.data]
        rw [h1] at h
        cases i with
        | zero =>
          simp only [List.cons_append, List.getElem?_cons_zero, Option.some.injEq] at h
          subst h
          exact ⟨[], log, rfl, rfl⟩
        | succ i =>
          simp only [List.cons_append, List.getElem?_cons_succ, List.nil_append] at h
          obtain ⟨pre, post, rfl, h2⟩ := ih hch' h
          exact ⟨_ :: pre, post, rfl, by rw [told_cons, h1, List.length_append, h2, Nat.add_comm]; rfl⟩
      · exact other (by simp [told, Ev.data, ht])
    | chunk t d' => exact absurd (List.mem_cons_self ..) (hch t d')
    | _ => exact other rfl

/-- **C129**, partial: `plainbox dev script` prints one line for every line that the command wrote, with the number that it has
in its stream, if all of the output is UTF-8. Full statement: for all output (`C129_stopped`) and for all jobs
(`C129_numbered_violated`). -/
theorem C129_numbered_partial (c : Cfg) (hs : c.sudo = false) (hq : Quiet c) (hc : c.chunked = false) (st : St)
    (hr : Reachable c st) (rc : Int) (hp : st.pc = .returned rc) (hw : ∀ s, Readable (st.wrote s)) (job : Str)
    (ls : Stream → List Bytes) (hl : ∀ s, Lines (st.wrote s) (ls s)) :
    (fallback job Printer.new st.log).length = (ls .out).length + (ls .err).length ∧
    ∀ s i d, (ls s)[i]? = some d →
      ∃ t line, nums d = encode t ∧ Shows job s (i + 1) t line ∧ line ∈ fallback job Printer.new st.log := by
  obtain ⟨_, _, _, h⟩ := Extcmd.C44_delivery_partial c hs hq st hr rc hp
  have he : ∀ s, ls s = told s st.log := fun s => Extcmd.lines_unique (hl s) ((h s).2.1 hc)
  have hch := no_chunks hc hr
  have hrd : ∀ s d, .line s d ∈ st.log → Readable d := fun s d hm => readable_lines ((h s).2.1 hc) (hw s) d (told_mem hm)
  refine ⟨by rw [he, he]; exact (fallback_append job [] st.log Printer.new rfl hch hrd).2, ?_⟩
  intro s i d hd
  rw [he] at hd
  obtain ⟨pre, post, hlog, hn⟩ := told_split hch hd
  obtain ⟨t, ht⟩ := hrd s d (by rw [hlog]; simp)
  obtain ⟨line, h1, h2⟩ := (fallback_at job pre post s d (fun s d hm => hch s d (by rw [hlog]; simp [hm]))
    (fun s d hm => hrd s d (by rw [hlog]; simp [hm]))).1 t ht
  exact ⟨t, line, ht, hn ▸ h1, by rw [hlog, h2]; simp⟩

/-- **C129**: the lines come in the order of the output, and nothing is printed from the first line on that is no UTF-8, of
either stream, whatever follows. -/
theorem C129_stopped (job : Str) (pre post : List Ev) (s : Stream) (d : Bytes) (hch : ∀ s d, .chunk s d ∉ pre)
    (hrd : ∀ s d, .line s d ∈ pre → Readable d) :
    (fallback job Printer.new pre).length = (told .out pre).length + (told .err pre).length ∧
    (∀ t, nums d = encode t → ∃ line rest, Shows job s ((told s pre).length + 1) t line ∧
      fallback job Printer.new (pre ++ .line s d :: post) = fallback job Printer.new pre ++ line :: rest) ∧
    (¬ Readable d → fallback job Printer.new (pre ++ .line s d :: post) = fallback job Printer.new pre) := by
  refine ⟨(fallback_append job [] pre Printer.new rfl hch hrd).2, fun t ht => ?_, (fallback_at job pre post s d hch hrd).2⟩
  obtain ⟨line, h1, h2⟩ := (fallback_at job pre post s d hch hrd).1 t ht
  exact ⟨line, _, h1, h2⟩

/-- **C129** does not hold for jobs with the flag `use-chunked-io`: `plainbox dev script` prints nothing of what they write. -/
theorem C129_numbered_violated :
    (∀ (c : Cfg) (st : St) (job : Str) (p : Printer), c.chunked = true → Reachable c st → fallback job p st.log = []) ∧
    ∃ c st, c.sudo = false ∧ Quiet c ∧ c.chunked = true ∧ Reachable c st ∧ st.pc = .returned 0 ∧
      nums (st.wrote .out) = encode "é\n".toList := by
  refine ⟨?_, C129_chunked_violated.2⟩
  intro c st job p hc hr
  have none : ∀ (l : List Ev) (p : Printer), (∀ s d, .line s d ∉ l) → fallback job p l = [] := by
    intro l
    induction l with
    | nil => exact fun _ _ => rfl
    | cons e l ih =>
      intro p h
      have ih := ih p fun s d hm => h s d (List.mem_cons_of_mem _ hm)
      cases e with
      | line s d => exact absurd (List.mem_cons_self ..) (h s d)
      | _ => exact ih
  have mid : ∀ (m : List Ev), (∀ e ∈ m, e.Mid c.chunked) → ∀ s d, .line s d ∉ m := by
    intro m hm s d h
    rcases hm _ h with h | ⟨h, _⟩ | ⟨_, _, _, h⟩
    · cases h
    · rw [hc] at h; cases h
    · cases h
  refine none st.log p fun s d h => ?_
  have last : ∀ b rc, Ev.line s d ≠ lastEv b rc := by
    intro b rc
    unfold lastEv
    split <;> exact nofun
  rcases Extcmd.C44_order c st hr with h' | ⟨m, hm, h' | ⟨rc, _, h'⟩⟩ <;> rw [h'] at h
  · cases h
  · exact mid m hm s d (by simpa using h)
  · simp only [List.mem_cons, reduceCtorEq, List.mem_append, List.not_mem_nil, or_false, false_or] at h
    rcases h with h | h
    · exact mid m hm s d h
    · exact last _ _ h

/-! ## Examples -/

/-- "é\n", then half a character, and an "x" on the other stream. -/
def exActs : List Extcmd.Act :=
  Extcmd.start ++ [.write .out [0xC3, 0xA9, 10, 0xE2, 0x82], .write .err [120, 10]] ++ Extcmd.through .out ++
    Extcmd.through .err ++ Extcmd.die 0 ++ Extcmd.through .out ++ [.read .out, .read .err, .main false, .main false,
      .main false, .main false, .get, .main false, .main false]

/-- The hypotheses of `C129_screen_partial`, with output that cannot be read completely. -/
example : ∃ c st, c.sudo = false ∧ Quiet c ∧ c.chunked = false ∧ Reachable c st ∧ st.pc = .returned 0 ∧
    st.wrote .out = [0xC3, 0xA9, 10, 0xE2, 0x82] ∧
    screen ⟨false, true⟩ .out st.log = top false .out ++ "é\n".toList ++ bottom false .out ∧
    screen ⟨true, true⟩ .err st.log = "\x1b[31m\x1b[1mx\n\x1b[0m".toList ∧
    fallback "job".toList Printer.new st.log = ["(job job, <stdout:00001>) é".toList, "(job job, <stderr:00001>) x".toList] := by
  have h : ((Extcmd.run (Extcmd.plain false) exActs Extcmd.init).map fun st => (st.pc, st.wrote .out, st.log)) =
      some (.returned 0, [0xC3, 0xA9, 10, 0xE2, 0x82],
        [.begin, .line .out [0xC3, 0xA9, 10], .line .err [120, 10], .line .out [0xE2, 0x82], .ended 0]) := by decide +kernel
  obtain ⟨st, h1, h2⟩ := Option.map_eq_some_iff.1 h
  simp only [Prod.mk.injEq] at h2
  refine ⟨Extcmd.plain false, st, rfl, Extcmd.quiet_plain _, rfl, ⟨_, h1⟩, h2.1, h2.2.1, ?_, ?_, ?_⟩ <;> rw [h2.2.2] <;>
    decide +kernel

/-- The hypotheses of `C129_text`, `C129_hidden` and `C129_numbered_partial`: two lines on one stream, none on the other. -/
example : ∃ c st, c.sudo = false ∧ Quiet c ∧ c.chunked = false ∧ Reachable c st ∧ st.pc = .returned 3 ∧ st.log ≠ [] ∧
    (∀ s, Readable (st.wrote s)) ∧ Lines (st.wrote .out) [[65, 10], [66]] ∧ Lines (st.wrote .err) [[67, 10]] := by
  have h : ((Extcmd.run (Extcmd.plain false) (Extcmd.sample false) Extcmd.init).map fun st =>
      (st.pc, st.wrote .out, st.wrote .err, decide (st.log ≠ []))) =
      some (.returned 3, [65, 10, 66], [67, 10], true) := by decide +kernel
  obtain ⟨st, h1, h2⟩ := Option.map_eq_some_iff.1 h
  simp only [Prod.mk.injEq, decide_eq_true_eq] at h2
  refine ⟨Extcmd.plain false, st, rfl, Extcmd.quiet_plain _, rfl, ⟨_, h1⟩, h2.1, h2.2.2.2, ?_, ?_, ?_⟩
  · intro s
    cases s
    · exact ⟨"A\nB".toList, by rw [h2.2.1]; decide⟩
    · exact ⟨"C\n".toList, by rw [h2.2.2.1]; decide⟩
  · rw [h2.2.1]
    exact ⟨rfl, [[65, 10]], [[66]], rfl, by simpa using ⟨[65], by decide, rfl⟩, .inr ⟨[66], rfl, by decide, by decide⟩⟩
  · rw [h2.2.2.1]
    exact ⟨rfl, [[67, 10]], [], rfl, by simpa using ⟨[67], by decide, rfl⟩, .inl rfl⟩

/-- `C129_reading`: a broken character in the middle. -/
example : Skims [104, 0xE2, 0x82, 105] "hi".toList := by
  have := skipAll_skims [104, 0xE2, 0x82, 105]
  have e : skipAll [104, 0xE2, 0x82, 105] = "hi".toList := by decide
  rwa [e] at this

/-- `C129_stopped`: everything after a byte that is no UTF-8 is lost. -/
example : ¬ Readable [0xFF, 10] ∧ fallback "j".toList Printer.new
      [.begin, .line .out [97, 10], .line .out [0xFF, 10], .line .err [98, 10], .ended 0] =
    ["(job j, <stdout:00001>) a".toList] := by
  refine ⟨?_, by decide +kernel⟩
  rintro ⟨t, ht⟩
  have := Stream.decode_encode t
  rw [← ht] at this
  exact absurd this (by rw [show Stream.decode (nums [0xFF, 10]) = none by decide]; exact nofun)

end Verif.Live
