/-!
# Selecting providers

Model of `SessionAssistant.select_providers` (plainbox/impl/session/assistant.py, "assistant", 376-466) and
of the loop of `start_new_session` that adds the selected providers to the session (assistant 568-573 with
`SessionDeviceContext.add_provider`, plainbox/impl/session/state.py 381-409).

Providers are compared by identity.  `plainbox` tells that a provider is in the namespace
`com.canonical.plainbox`, `fits pat p` that the name of the provider is `pat` or matches it
(`fnmatch.fnmatchcase`).  The units of the providers are left out.
-/

namespace Verif.Select

variable {P Pat : Type} [DecidableEq P]

/-- `for provider in provider_list[:]: if test: provider_list.remove(provider);
self._selected_providers.append(provider)` (assistant 437-441, 446-455): the copy that is iterated over,
the list of candidates and the selected providers. -/
def take (test : P → Bool) : List P → List P → List P → List P × List P
  | [], l, sel => (l, sel)
  | p :: copy, l, sel =>
    if test p then take test copy (l.erase p) (sel ++ [p]) else take test copy l sel

/-- The loop over patterns (assistant 443-457); the flag tells that `ValueError` is raised. -/
def patterns (fits : Pat → P → Bool) : List Pat → List P → List P → List P × Bool
  | [], _, sel => (sel, false)
  | pat :: pats, l, sel =>
    if l.any (fits pat) then patterns fits pats (take (fits pat) l l sel).1 (take (fits pat) l l sel).2
    else (sel, true)

/-- `select_providers`: all providers, those selected already, the patterns. (assistant 405-466) -/
def select (plainbox : P → Bool) (fits : Pat → P → Bool) (all : List P) (pats : List Pat) (sel : List P) :
    List P × Bool :=
  let r := take plainbox all all sel
  patterns fits pats r.1 r.2

/-- Adding providers to a new session; `false` is the `ValueError` about a provider added twice.
(assistant 568-573, state.py 381-409) -/
def addAll : List P → List P → Bool
  | [], _ => true
  | p :: l, added => if p ∈ added then false else addAll l (added ++ [p])

/-- Attempts to select providers, until one does not raise: the selected providers, if there was such an
attempt. (assistant 376-466) -/
def attempts (plainbox : P → Bool) (fits : Pat → P → Bool) (all : List P) : List (List Pat) → List P → Option (List P)
  | [], _ => none
  | pats :: more, sel =>
    let r := select plainbox fits all pats sel
    if r.2 then attempts plainbox fits all more r.1 else some r.1

end Verif.Select
