import Verif.Api

/-!
# Model of the life of the tokens of the REST API : delivery, renewal, expiration, revocation
-/

namespace Oar.Tokens

open Oar.Api

/-- A token delivered. `user`, `date`, `exp` are its payload (oar/lib/access_token.py:10-31); that a token which decodes is one of those
delivered is what the signature is trusted for. `owner` and `born` are not in the payload: the user who executed `oarsub --api-token` to get
the first token of the chain of renewals, and when. -/
structure Tok where
  user : String
  date : Int
  exp : Int
  owner : String
  born : Int
  deriving DecidableEq, Repr

/-- The world: the clock (s, UTC), the file of the revocations (`none` : its content is not JSON), the revocations known to the API, the
tokens delivered. -/
structure World where
  now : Int
  file : Option Revoked
  loaded : Revoked
  tokens : List Tok
  deriving DecidableEq, Repr

/-- Models `create_access_token` (oar/lib/access_token.py:9-30): the token expires `minutes` minutes after now. -/
def create (minutes : Nat) (user owner : String) (born now : Int) : Tok := ⟨user, now, now + 60 * minutes, owner, born⟩

/-- Models `get_token_data` (oar/api/auth.py:15-30): the payload of the token, `none` when it has expired (`jwt.decode` raises when
`exp < now`). -/
def tokenData (w : World) (t : Tok) : Option Token := if t.exp < w.now then none else some ⟨some t.user, some t.date⟩

/-- What a request with the token gets: `get_token_data` and `need_authentication` (oar/api/auth.py:15-85). `off` : offset of the time zone of
the API, see `needAuthentication`. -/
def request (off : Int) (w : World) (t : Tok) : Auth := needAuthentication off (tokenData w t) w.loaded

/-- Models `whoami` (oar/api/routers/frontend.py:52-63). -/
def whoami (w : World) (t : Tok) : String :=
  match tokenData w t with
  | some d => d.user.getD ""
  | none => ""

/-- The revocations read when the API starts (oar/api/app.py:67-77): none at all when the file is not JSON. -/
def load (f : Option Revoked) : Revoked := f.getD ⟨none, []⟩

/-- What can happen. -/
inductive Act
  /-- time goes by -/
  | tick (d : Nat)
  /-- `oarsub --api-token` executed by a user (oar/cli/oarsub.py:47-52, 518-520) -/
  | deliver (user : String)
  /-- `GET /get_new_token` with a token (oar/api/routers/frontend.py:78-87) -/
  | renew (t : Tok)
  /-- the administrator writes the file -/
  | write (f : Option Revoked)
  /-- the API is started again (oar/api/app.py:48-131) -/
  | restart
  deriving DecidableEq, Repr

/-- One step. An empty user gets no token (oar/cli/oarsub.py:49); a renewal whose token is not accepted answers 401 or fails
(oar/api/routers/frontend.py:81-87); the new token is for the user of the payload. -/
def step (off : Int) (minutes : Nat) (w : World) : Act → World
  | .tick d => { w with now := w.now + d }
  | .deliver u => if u = "" then w else { w with tokens := create minutes u u w.now w.now :: w.tokens }
  | .renew t =>
    if t ∈ w.tokens then
      match request off w t with
      | .accepted _ => { w with tokens := create minutes t.user t.owner t.born w.now :: w.tokens }
      | _ => w
    else w
  | .write f => { w with file := f }
  | .restart => { w with loaded := load w.file }

/-- A sequence of steps. -/
def run (off : Int) (minutes : Nat) (w : World) (l : List Act) : World := l.foldl (step off minutes) w

/-- The API starts with no token delivered. -/
def start (now : Int) (f : Option Revoked) : World := ⟨now, f, load f, []⟩

end Oar.Tokens
