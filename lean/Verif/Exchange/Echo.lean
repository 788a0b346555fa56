import Verif.Num
import Verif.Simple.Model

/-
Client echo whitelists: `/repo/ref-exchange/src/client_echo_limit.rs`. The three sets are
lists without duplicates; account ids and patterns are lists of characters.
-/

namespace Verif

/-- `matches_wildcard_pattern`, `client_echo_limit.rs:48-65`. -/
def matchesWildcard (whitelist : List (List Char)) (account : AccountId) : Bool :=
  whitelist.contains account ||
    whitelist.any fun pattern =>
      match pattern with
      | '*' :: suffix => suffix.isSuffixOf account
      | _ => false

/-- `assert_client_echo_valid`, `client_echo_limit.rs:67-80`. -/
def assertClientEchoValid (secure tokens senders : List (List Char)) (token sender : AccountId) :
    R Unit := do
  if matchesWildcard secure sender then .ok ()
  else
    assertE (matchesWildcard tokens token = true) .other
    assertE (matchesWildcard senders sender = true) .other

/-- The form check of `extend_client_echo_token_id_whitelist` and
`extend_secure_sender_whitelist`, `client_echo_limit.rs:90-92, 151-153`: a pattern that
starts with `*` must start with `*.`. -/
def wildcardFormOk : List Char → Bool
  | '*' :: '.' :: _ => true
  | '*' :: _ => false
  | _ => true

/-- The insertion loop of the `extend_*` functions, `client_echo_limit.rs:85-97, 116-126,
145-158`: every new entry passes the form check (when `checked`) and is not in the set yet. -/
def extendEcho (checked : Bool) : (set items : List (List Char)) → R (List (List Char))
  | set, [] => .ok set
  | set, x :: rest => do
    assertE (checked = true → wildcardFormOk x = true) .other
    assertE (x ∉ set) .other
    extendEcho checked (x :: set) rest

/-- The removal loop of the `remove_*` functions, `client_echo_limit.rs:99-109, 128-138,
160-170`. -/
def removeEcho : (set items : List (List Char)) → R (List (List Char))
  | set, [] => .ok set
  | set, x :: rest => do
    assertE (x ∈ set) .other
    removeEcho (set.filter (· ≠ x)) rest

end Verif
