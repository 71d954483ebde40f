import Verif.Basic

/-!
# The translator

Models `GettextTranslator` in `plainbox/i18n.py` ("i18n" below), lines 375-509.

Simplifications: catalogues of messages do not change while the program runs; they tell the translation of a message, if there is one, and
of a message for a number; arguments are given by position, as the caches tell these apart from keyword arguments; what `gettext` of the
standard library does with `textdomain` and `bindtextdomain` for other programs and what is logged is left out.
-/

namespace Verif.Translate

/-- Texts (i18n 383-509). -/
abbrev Str := List Char

/-- A catalogue: translations of messages, and of messages for a number. (standard library, behind i18n 395) -/
structure Catalog where
  one : Str → Option Str
  many : Str → Int → Option Str

/-- `NullTranslations()`, i18n 398. -/
def Catalog.null : Catalog := ⟨fun _ => none, fun _ _ => none⟩

/-- `gettext` of a catalogue. (standard library, in i18n 414, 447, 457) -/
def Catalog.gettext (c : Catalog) (m : Str) : Str := (c.one m).getD m

/-- `ngettext` of a catalogue. (standard library, in i18n 418, 451, 468) -/
def Catalog.ngettext (c : Catalog) (a b : Str) (n : Int) : Str := (c.many a n).getD (if n = 1 then a else b)

/-- The catalogues that can be found, by domain and directory; `none` is `IOError`. (standard library, in i18n 395-397) -/
abbrev World := Str → Option Str → Option Catalog

/-- The calls of the translator, i18n 412-509. -/
inductive Call
  | gettext (m : Str)
  | ngettext (a b : Str) (n : Int)
  | pgettext (c m : Str)
  | pngettext (c a b : Str) (n : Int)
  | dgettext (d m : Str)
  | dngettext (d a b : Str) (n : Int)
  | pdgettext (c d m : Str)
  | pdngettext (c d a b : Str) (n : Int)
  | textdomain (d : Str)
  | bindtextdomain (d : Str) (dir : Option Str)
deriving DecidableEq

/-- A translator: `_domain`, `_translations`, `_locale_dir_map` and the caches of `lru_cache` (i18n 383-388, 412-497); a result is a text or
`None`. -/
structure State where
  domain : Str
  translations : List (Str × Catalog)
  dirs : List (Str × Option Str)
  cache : List (Call × Option Str)

/-- `__init__`, i18n 383-388. -/
def State.init (domain : Str) (dir : Option Str) : State := ⟨domain, [], [(domain, dir)], []⟩

/-- `_get_translation`, i18n 390-400. -/
def getTranslation (w : World) (d : Str) (s : State) : Catalog × State :=
  match s.translations.lookup d with
  | some c => (c, s)
  | none =>
    let c := (w d ((s.dirs.lookup d).getD none)).getD Catalog.null
    (c, { s with translations := (d, c) :: s.translations })

/-- `_contextualize`, i18n 402-410. -/
def contextualize (c m : Str) : Str := c ++ Char.ofNat 4 :: m

/-- `lru_cache(maxsize=None)`, i18n 412-497: the function is called for arguments that are new. -/
def cached (c : Call) (f : State → Option Str × State) (s : State) : Option Str × State :=
  match s.cache.lookup c with
  | some r => (r, s)
  | none => ((f s).1, { (f s).2 with cache := (c, (f s).1) :: (f s).2.cache })

/-- `gettext`, i18n 412-414. -/
def gettext (w : World) (m : Str) : State → Option Str × State :=
  cached (.gettext m) fun s => (some ((getTranslation w s.domain s).1.gettext m), (getTranslation w s.domain s).2)

/-- `ngettext`, i18n 416-418. -/
def ngettext (w : World) (a b : Str) (n : Int) : State → Option Str × State :=
  cached (.ngettext a b n) fun s => (some ((getTranslation w s.domain s).1.ngettext a b n), (getTranslation w s.domain s).2)

/-- The message again if it was not translated, i18n 426-429, 459-462. -/
def unless1 (key m : Str) (r : Option Str) : Option Str := if r = some key then some m else r

/-- One of the messages again if it was not translated, i18n 438-443, 472-477. -/
def unless2 (key1 key2 a b : Str) (r : Option Str) : Option Str :=
  if r = some key1 then some a else if r = some key2 then some b else r

/-- `pgettext`, i18n 420-429. -/
def pgettext (w : World) (c m : Str) : State → Option Str × State :=
  cached (.pgettext c m) fun s =>
    (unless1 (contextualize c m) m (gettext w (contextualize c m) s).1, (gettext w (contextualize c m) s).2)

/-- `pngettext`, i18n 431-443. -/
def pngettext (w : World) (c a b : Str) (n : Int) : State → Option Str × State :=
  cached (.pngettext c a b n) fun s =>
    (unless2 (contextualize c a) (contextualize c b) a b (ngettext w (contextualize c a) (contextualize c b) n s).1,
      (ngettext w (contextualize c a) (contextualize c b) n s).2)

/-- `dgettext`, i18n 445-447. -/
def dgettext (w : World) (d m : Str) : State → Option Str × State :=
  cached (.dgettext d m) fun s => (some ((getTranslation w d s).1.gettext m), (getTranslation w d s).2)

/-- `dngettext`, i18n 449-451. -/
def dngettext (w : World) (d a b : Str) (n : Int) : State → Option Str × State :=
  cached (.dngettext d a b n) fun s => (some ((getTranslation w d s).1.ngettext a b n), (getTranslation w d s).2)

/-- `pdgettext`, i18n 453-462. -/
def pdgettext (w : World) (c d m : Str) : State → Option Str × State :=
  cached (.pdgettext c d m) fun s =>
    (unless1 (contextualize c m) m (some ((getTranslation w d s).1.gettext (contextualize c m))), (getTranslation w d s).2)

/-- `pdngettext`, i18n 464-477. -/
def pdngettext (w : World) (c d a b : Str) (n : Int) : State → Option Str × State :=
  cached (.pdngettext c d a b n) fun s =>
    (unless2 (contextualize c a) (contextualize c b) a b
      (some ((getTranslation w d s).1.ngettext (contextualize c a) (contextualize c b) n)), (getTranslation w d s).2)

/-- `textdomain`, i18n 479-495. -/
def textdomain (d : Str) : State → Option Str × State :=
  cached (.textdomain d) fun s => (none, { s with domain := d })

/-- `bindtextdomain`, i18n 497-509. -/
def bindtextdomain (d : Str) (dir : Option Str) : State → Option Str × State :=
  cached (.bindtextdomain d dir) fun s => (none, { s with dirs := (d, dir) :: s.dirs })

/-- A call. (i18n 412-509) -/
def call (w : World) : Call → State → Option Str × State
  | .gettext m => gettext w m
  | .ngettext a b n => ngettext w a b n
  | .pgettext c m => pgettext w c m
  | .pngettext c a b n => pngettext w c a b n
  | .dgettext d m => dgettext w d m
  | .dngettext d a b n => dngettext w d a b n
  | .pdgettext c d m => pdgettext w c d m
  | .pdngettext c d a b n => pdngettext w c d a b n
  | .textdomain d => textdomain d
  | .bindtextdomain d dir => bindtextdomain d dir

/-- The results of a sequence of calls. (i18n 412-509) -/
def run (w : World) : List Call → State → List (Option Str)
  | [], _ => []
  | c :: cs, s => (call w c s).1 :: run w cs (call w c s).2

end Verif.Translate
