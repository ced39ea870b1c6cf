/-!
# node.go:390-441 `dialIfNotExists`, as used by `Send`, `Request` and `Ping`

The loop over the attempts. What each attempt meets is an arbitrary oracle: which client the pool returns, whether the context has ended, which branch of the
`select` is taken with which error, and whether `waitUntilClosed` of the failed client returns (C32 proves that it need not).
-/
namespace Noise.Dial

/-- Errors, as far as `dialIfNotExists` distinguishes them: wrapping `context.Canceled` / `context.DeadlineExceeded`, or not. (The errors of a `net.Dialer` whose
context ended do *not* wrap them: Go 1.13 `net.mapErr` replaces them by `net.errCanceled` and `poll.ErrTimeout`.) node.go:399-417. -/
inductive DialErr where
  | ctx (n : Nat)
  | other (n : Nat)
  deriving DecidableEq

/-- What one round of the loop meets. node.go:394-408. -/
structure Attempt where
  /-- node.go:394 -/
  client : Nat
  /-- the context has ended when the `select` is executed -/
  ctxEnded : Bool
  /-- node.go:399-408: the error after the `select` -/
  observed : Option DialErr
  /-- node.go:415 returns -/
  closes : Bool

/-- node.go:394-438: what a call does that others can see. -/
inductive Event where
  /-- round `i` was started (node.go:394-397: a pooled client is taken or a new one dials) -/
  | attempt (i : Nat)
  /-- `OnPingFailed` of the `p`-th protocol was called -/
  | pingFailed (p : Nat)
  deriving DecidableEq

/-- node.go:390-441: what a call returns and did. -/
inductive Outcome where
  | client (c : Nat)
  | error (e : Option DialErr)
  /-- the call does not return -/
  | blocked
  deriving DecidableEq

/-- node.go:393-428; `k` rounds are left, the next one is round `i`, `err` is the error of the previous one. -/
def loop (o : Nat → Attempt) : Nat → Nat → Option DialErr → List Event × Outcome
  | 0, _, err => ([], .error err)
  | k + 1, i, _ =>
    let a := o i
    match a.observed with
    | none => ([.attempt i], .client a.client)
    | some e =>
      if a.closes then match e with
        | .ctx n => ([.attempt i], .error (some (.ctx n)))
        | .other n =>
          let r := loop o k (i + 1) (some (.other n))
          (.attempt i :: r.1, r.2)
      else ([.attempt i], .blocked)

/-- node.go:418-425 and 432-438: the protocols that have the callback, in order. -/
def pingFailures (hooks : List Bool) : List Event :=
  ((List.range hooks.length).filter (fun p => hooks[p]? = some true)).map .pingFailed

/-- node.go:390-441. Both exits with an error call `OnPingFailed` of every protocol that has it. -/
def dial (max : Nat) (hooks : List Bool) (o : Nat → Attempt) : List Event × Outcome :=
  match loop o max 0 none with
  | (es, .error e) => (es ++ pingFailures hooks, .error e)
  | r => r

end Noise.Dial
