/-!
Glob matching and scope tests (include/common/Wildcard.hpp).

A C string is the list of its characters before the terminating NUL. A pointer into it is the
remaining suffix. Reading position `length` yields the NUL, modelled by `none`; reading beyond it,
or moving a pointer beyond it, is the fault `oob`. (C++ allows forming the one-past-the-end
pointer; the model rejects it too, which only makes the safety theorem stronger.)
-/
namespace Verif.Model

/-- Ways a modelled C routine can go wrong: out-of-bounds access, more loop iterations or recursive
calls than the supplied budget, or reaching code declared unreachable. Models no code; it makes
undefined behaviour and non-termination visible. -/
inductive Fault where
  | oob
  | budget
  | unreachable
  deriving DecidableEq, Repr

deriving instance DecidableEq for Except

/-- `p[k]` on a `const char *` (as used throughout include/common/Wildcard.hpp:28-155).
`none` is the NUL. -/
def rd (p : List Char) (k : Nat) : Except Fault (Option Char) :=
  if k ≤ p.length then .ok p[k]? else .error .oob

/-- `p + k` on a `const char *` (include/common/Wildcard.hpp:28-155). -/
def adv (p : List Char) (k : Nat) : Except Fault (List Char) :=
  if k ≤ p.length then .ok (p.drop k) else .error .oob

/-- `p[0] == '*' && p[1] == '*'` with short-circuit (include/common/Wildcard.hpp:37, 46). -/
def twoStars (p : List Char) : Except Fault Bool := do
  if (← rd p 0) = some '*' then
    if (← rd p 1) = some '*' then return true else return false
  else return false

/-- `p[0] == '.' && p[1] == '.' && p[2] == '.'` with short-circuit
(include/common/Wildcard.hpp:38, 48). -/
def threeDots (p : List Char) : Except Fault Bool := do
  if (← rd p 0) = some '.' then
    if (← rd p 1) = some '.' then
      if (← rd p 2) = some '.' then return true else return false
    else return false
  else return false

/-- `while (true) { if (m(text)) return true; if (*text == 0) return false; ++text; }`
(include/common/Wildcard.hpp:86-94 and 113-121). The first argument bounds the iterations. -/
def anyLoop (m : List Char → Except Fault Bool) : Nat → List Char → Except Fault Bool
  | 0, _ => .error .budget
  | k + 1, text => do
    if (← m text) then return true
    if (← rd text 0) = none then return false
    anyLoop m k (← adv text 1)

/-- `while (*text != 0) { if (*text == '.' && m(text + 1)) return true; ++text; } return false;`
(include/common/Wildcard.hpp:67-73 and 103-109). -/
def dotLoop (m : List Char → Except Fault Bool) : Nat → List Char → Except Fault Bool
  | 0, _ => .error .budget
  | k + 1, text => do
    if (← rd text 0) = none then return false
    if (← rd text 0) = some '.' then
      if (← m (← adv text 1)) then return true
    dotLoop m k (← adv text 1)

/-- `while (true) { if (m(text)) return true; if (*text == 0 || *text == '.') return false;
++text; }` (include/common/Wildcard.hpp:127-135). -/
def segLoop (m : List Char → Except Fault Bool) : Nat → List Char → Except Fault Bool
  | 0, _ => .error .budget
  | k + 1, text => do
    if (← m text) then return true
    if (← rd text 0) = none ∨ (← rd text 0) = some '.' then return false
    segLoop m k (← adv text 1)

/-- `wildcardMatch(text, pattern)` (include/common/Wildcard.hpp:28-155). The first argument bounds
recursive calls plus iterations of the outer loop (an outer iteration ending in `continue` is a
tail call here); inner loops get one iteration more than the text has characters. -/
def wildcardMatch : Nat → List Char → List Char → Except Fault Bool
  | 0, _, _ => .error .budget
  | f + 1, text, pattern => do
    if (← rd pattern 0) = none then
      if (← rd text 0) = none then return true else return false
    -- lines 33-43
    let hasLead ← (do
      if (← rd pattern 0) = some '.' then
        let q ← adv pattern 1
        if (← twoStars q) then return true else threeDots q
      else return false)
    let p ← (if hasLead then adv pattern 1 else return pattern)
    -- lines 45-50
    let recurLen ← (do
      if (← twoStars p) then return 2
      else if (← threeDots p) then return 3 else return 0)
    if recurLen ≠ 0 then
      -- lines 52-55
      let afterRecur ← adv p recurLen
      let hasTrail ← (do if (← rd afterRecur 0) = some '.' then return true else return false)
      let rest ← (if hasTrail then adv afterRecur 1 else return afterRecur)
      if hasLead && hasTrail then
        -- lines 57-74
        if (← rd text 0) ≠ some '.' then return false
        let text ← adv text 1
        if (← wildcardMatch f text rest) then return true
        dotLoop (fun t => wildcardMatch f t rest) (text.length + 1) text
      else if hasLead then
        -- lines 76-95
        if (← wildcardMatch f text rest) then return true
        if (← rd text 0) ≠ some '.' then return false
        let text ← adv text 1
        anyLoop (fun t => wildcardMatch f t rest) (text.length + 1) text
      else if hasTrail then
        -- lines 97-110
        if (← wildcardMatch f text rest) then return true
        dotLoop (fun t => wildcardMatch f t rest) (text.length + 1) text
      else
        -- lines 112-121
        anyLoop (fun t => wildcardMatch f t rest) (text.length + 1) text
    else if (← rd pattern 0) = some '*' then
      -- lines 124-136
      let rest ← adv pattern 1
      segLoop (fun t => wildcardMatch f t rest) (text.length + 1) text
    else if (← rd pattern 0) = some '?' then
      -- lines 138-146
      if (← rd text 0) = none ∨ (← rd text 0) = some '.' then return false
      wildcardMatch f (← adv text 1) (← adv pattern 1)
    else if (← rd pattern 0) ≠ (← rd text 0) then return false
    else wildcardMatch f (← adv text 1) (← adv pattern 1)

/-- `wildcardMatch` with the budget that is shown to suffice (include/common/Wildcard.hpp:28-155). -/
def glob (text pattern : List Char) : Except Fault Bool :=
  wildcardMatch (pattern.length + 1) text pattern

/-- `std::string::c_str()` seen as a C string: characters after an embedded NUL are invisible
(tools/driver/driver.cpp:484, source/NetlistGraph.cpp:264). -/
def cstr (s : List Char) : List Char := s.takeWhile (· ≠ '\x00')

/-- `pathInScope(path, scope)` (include/common/Wildcard.hpp:161-166); the last index is read only
when in range, otherwise the access would be the fault `oob`. -/
def pathInScope (path scope : List Char) : Except Fault Bool :=
  if path.length < scope.length ∨ path.take scope.length ≠ scope then .ok false
  else if path.length = scope.length then .ok true
  else match path[scope.length]? with
    | some c => .ok (c = '.')
    | none => .error .oob

/-- `std::any_of` over a test that may fault (tools/driver/driver.cpp:473-475, 482-485). -/
def anyOf (t : List Char → Except Fault Bool) : List (List Char) → Except Fault Bool
  | [] => .ok false
  | x :: xs => do if (← t x) then return true else anyOf t xs

/-- `passesFilters(path)` (tools/driver/driver.cpp:471-491). -/
def passesFilters (scopes names : List (List Char)) (path : List Char) : Except Fault Bool := do
  if scopes ≠ [] then
    if !(← anyOf (fun s => pathInScope path s) scopes) then return false
  if names ≠ [] then
    if !(← anyOf (fun p => glob (cstr path) (cstr p)) names) then return false
  return true

/-- `NetlistBuilder::isBlackBoxInstance` pattern test: definition name or hierarchical path matches
some pattern (source/NetlistBuilder.cpp:458-476). The two names are computed by the AST. -/
def isBlackBox (patterns : List (List Char)) (defName path : List Char) : Except Fault Bool := do
  if patterns = [] then return false
  if (← anyOf (fun p => glob (cstr defName) (cstr p)) patterns) then return true
  if (← anyOf (fun p => glob (cstr path) (cstr p)) patterns) then return true
  return false

end Verif.Model
