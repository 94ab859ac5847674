import Verif.Net.Rpc

/-!
# C115: requests and answers of the JSON-RPC interfaces
-/
namespace Verif.Props
open Verif Verif.Codec Verif.Rpc

/-- The names of the members of an object. -/
def memberNames : Json → List String
  | .obj fs => fs.map (·.1)
  | _ => []

private theorem ofError_json (id : Json) (c : Int) (m : Bytes) (d : Option Json) :
    (Response.ofError id c m d).toJson = .ok (.obj [("jsonrpc", .str (str "2.0")), ("id", id),
      ("error", .obj [("code", .int c), ("message", .str m), ("data", d.getD .null)])]) := rfl

private theorem failed_shape (id : Json) (f : Fail) : ∃ i c m, (failed id f).1 = Response.ofError i c m := by
  cases f with
  | rpc m i => exact ⟨_, _, _, rfl⟩
  | deser m => exact ⟨_, _, _, rfl⟩
  | api c m => exact ⟨_, _, _, rfl⟩
  | other m => exact ⟨_, _, _, rfl⟩

private theorem serve_shape (methods : Bytes → Option Method) (body : ReqBody) :
    (∃ i v, (serve methods body).1 = .ofResult i v) ∨ ∃ i c m d, (serve methods body).1 = .ofError i c m d := by
  rw [serve]
  cases parseRequest body with
  | error e => obtain ⟨i, c, m, h⟩ := failed_shape .null (.rpc e.1 e.2); exact Or.inr ⟨i, c, m, none, h⟩
  | ok req =>
    dsimp only
    cases methods req.method with
    | none => exact Or.inr ⟨_, _, _, _, rfl⟩
    | some m =>
      dsimp only
      cases m.handle req with
      | error f => obtain ⟨i, c, m, h⟩ := failed_shape req.id f; exact Or.inr ⟨i, c, m, none, h⟩
      | ok out =>
        cases out with
        | inl v => exact Or.inl ⟨_, _, rfl⟩
        | inr e => exact Or.inr ⟨_, _, _, _, rfl⟩

/-- **C115**: whatever is posted to the interface and whatever the methods do, there is one answer, and it is an object with `jsonrpc` "2.0",
an `id`, and either a result or an error. -/
theorem every_request_answered (methods : Bytes → Option Method) (body : ReqBody) :
    ∃ j, (serve methods body).1.toJson = .ok j ∧ j.get "jsonrpc" = .ok (.str (str "2.0")) ∧ j.get "id" = .ok (serve methods body).1.id ∧
      (memberNames j = ["jsonrpc", "id", "result"] ∨ memberNames j = ["jsonrpc", "id", "error"]) := by
  rcases serve_shape methods body with ⟨i, v, h⟩ | ⟨i, c, m, d, h⟩
  · rw [h]; exact ⟨_, rfl, rfl, rfl, Or.inl rfl⟩
  · rw [h, ofError_json]; exact ⟨_, rfl, rfl, rfl, Or.inr rfl⟩

private theorem field_obj (fs : List (String × Json)) (k : String) :
    field (.obj fs) k = .ok (let v := (fs.lookup k).getD .null; if v.isNull then none else some v) := rfl

private theorem isNull_null : Json.null.isNull = true := rfl
private theorem isNull_str (x : Bytes) : (Json.str x).isNull = false := rfl
private theorem isNull_bool (x : Bool) : (Json.bool x).isNull = false := rfl
private theorem isNull_int (x : Int) : (Json.int x).isNull = false := rfl
private theorem isNull_arr (x : List Json) : (Json.arr x).isNull = false := rfl
private theorem isNull_obj (x : List (String × Json)) : (Json.obj x).isNull = false := rfl

set_option linter.unusedSimpArgs false in
/-- **C115**: an object is read as a request exactly if it has an id that is not null, `jsonrpc` "2.0" and a method that is a text and not
empty; the request is what the object says. -/
theorem request_read (fs : List (String × Json)) (r : Request) :
    parseValue (.obj fs) = .ok r ↔
      fs.lookup "id" = some r.id ∧ r.id.isNull = false ∧ fs.lookup "jsonrpc" = some (.str (str "2.0")) ∧
        fs.lookup "method" = some (.str r.method) ∧ r.method ≠ [] ∧
        r.params = (let v := (fs.lookup "params").getD .null; if v.isNull then none else some v) := by
  rw [parseValue]
  simp only [field_obj]
  obtain ⟨rid, rm, rp⟩ := r
  generalize fs.lookup "id" = a
  generalize fs.lookup "jsonrpc" = b
  generalize fs.lookup "method" = c
  generalize (let v := (fs.lookup "params").getD Json.null; if v.isNull = true then none else some v) = p
  rcases a with _ | a
  · simp [isNull_null, bind, Except.bind]
  · by_cases ha : a.isNull = true
    · simp only [Option.getD_some, ha, if_true, Option.some.injEq]
      constructor
      · intro h; simp [bind, Except.bind] at h
      · rintro ⟨rfl, h, _⟩; rw [ha] at h; cases h
    · rcases b with _ | b
      · simp [isNull_null, isNull_str, isNull_bool, isNull_int, isNull_arr, isNull_obj, ha, bind, Except.bind]
      · cases b with
        | str v =>
          by_cases hv : v = str "2.0"
          · subst hv
            rcases c with _ | c
            · simp [isNull_null, isNull_str, isNull_bool, isNull_int, isNull_arr, isNull_obj, ha, bind, Except.bind]
            · cases c with
              | str m =>
                by_cases hm : m = []
                · subst hm
                  simp [isNull_null, isNull_str, isNull_bool, isNull_int, isNull_arr, isNull_obj, ha, bind, Except.bind]
                  intro _ _ h1 h2; exact absurd h1 h2
                · simp only [isNull_null, isNull_str, isNull_bool, isNull_int, isNull_arr, isNull_obj, ha, bind, Except.bind, hm, Option.getD_some, if_false, ne_eq, not_true, Bool.false_eq_true,
                    Except.ok.injEq, Request.mk.injEq, Option.some.injEq, Json.str.injEq]
                  constructor
                  · rintro ⟨rfl, rfl, rfl⟩; exact ⟨rfl, by simpa using ha, trivial, rfl, hm, rfl⟩
                  · rintro ⟨rfl, _, _, rfl, _, rfl⟩; exact ⟨rfl, rfl, rfl⟩
              | null => simp [isNull_null, isNull_str, isNull_bool, isNull_int, isNull_arr, isNull_obj, ha, bind, Except.bind]
              | bool _ => simp [isNull_null, isNull_str, isNull_bool, isNull_int, isNull_arr, isNull_obj, ha, bind, Except.bind]
              | int _ => simp [isNull_null, isNull_str, isNull_bool, isNull_int, isNull_arr, isNull_obj, ha, bind, Except.bind]
              | arr _ => simp [isNull_null, isNull_str, isNull_bool, isNull_int, isNull_arr, isNull_obj, ha, bind, Except.bind]
              | obj _ => simp [isNull_null, isNull_str, isNull_bool, isNull_int, isNull_arr, isNull_obj, ha, bind, Except.bind]
          · simp [isNull_null, isNull_str, isNull_bool, isNull_int, isNull_arr, isNull_obj, ha, bind, Except.bind, hv]
        | null => simp [isNull_null, isNull_str, isNull_bool, isNull_int, isNull_arr, isNull_obj, ha, bind, Except.bind]
        | bool _ => simp [isNull_null, isNull_str, isNull_bool, isNull_int, isNull_arr, isNull_obj, ha, bind, Except.bind]
        | int _ => simp [isNull_null, isNull_str, isNull_bool, isNull_int, isNull_arr, isNull_obj, ha, bind, Except.bind]
        | arr _ => simp [isNull_null, isNull_str, isNull_bool, isNull_int, isNull_arr, isNull_obj, ha, bind, Except.bind]
        | obj _ => simp [isNull_null, isNull_str, isNull_bool, isNull_int, isNull_arr, isNull_obj, ha, bind, Except.bind]

private theorem parse_error_id {fs : List (String × Json)} {id : Json} (h : fs.lookup "id" = some id) (hn : id.isNull = false)
    {e : Bytes × Option Json} (he : parseValue (.obj fs) = .error e) : e.2 = some id := by
  rw [parseValue] at he
  simp only [field_obj, h, Option.getD_some, hn, Bool.false_eq_true, if_false, bind, Except.bind] at he
  split at he
  · cases he; rfl
  · split at he
    · cases he; rfl
    · split at he
      · cases he; rfl
      · split at he
        · cases he; rfl
        · cases he
      · cases he; rfl
  · cases he; rfl

/-- **C115**, what holds of the id: a request that is an object with an id gets an answer with this id, whatever else is wrong with it and
however its method ends, unless the method throws an `RPCException` that carries another id or none.  That case occurs:
`mismatch_id_violated`. -/
theorem answer_id_partial (methods : Bytes → Option Method) {fs : List (String × Json)} {id : Json} (h : fs.lookup "id" = some id)
    (hn : id.isNull = false)
    (hm : ∀ name m r msg i, methods name = some m → m.handle r = .error (.rpc msg i) → i = some r.id) :
    (serve methods (.value (.obj fs))).1.id = id := by
  rw [serve, parseRequest]
  cases hp : parseValue (.obj fs) with
  | error e =>
    have := parse_error_id h hn hp
    obtain ⟨e1, e2⟩ := e
    simp only at this
    subst this
    rfl
  | ok req =>
    have hid : req.id = id := by
      have := ((request_read fs req).1 hp).1
      rw [h] at this; exact (Option.some.inj this).symm
    dsimp only
    cases hq : methods req.method with
    | none => exact hid
    | some m =>
      dsimp only
      cases hh : m.handle req with
      | ok out => cases out <;> exact hid
      | error f =>
        cases f with
        | rpc msg i =>
          show i.getD .null = id
          rw [hm _ _ _ _ _ hq hh]; exact hid
        | deser _ => exact hid
        | api _ _ => exact hid
        | other _ => exact hid

/-- **C115**: a method that does not exist is answered with `-32601` and nothing runs; an exception is answered with an error. -/
theorem wrong_method (methods : Bytes → Option Method) {body : ReqBody} {req : Request} (hp : parseRequest body = .ok req) :
    (methods req.method = none → ∃ m, (serve methods body).1 = .ofError req.id (-32601) m) ∧
    (∀ m f, methods req.method = some m → m.handle req = .error f → (serve methods body).1.result = none ∧
      ∃ e, (serve methods body).1.error = some e ∧ e.code = (match f with | .deser _ => -32602 | .api c _ => c | _ => -32600)) := by
  constructor
  · intro h
    rw [serve, hp]
    simp only [h]
    exact ⟨_, rfl⟩
  · intro m f h hf
    rw [serve, hp]
    simp only [h, hf]
    cases f <;> exact ⟨rfl, _, rfl, rfl⟩

/-! ## A call and its answer -/

/-- **C115**: what a client asks is what the method gets, and what the method gives is what the client reads: the result (unless it is null),
or the error's code and message, with the id of the request. -/
theorem call_round_trip (methods : Bytes → Option Method) (req : Request) (m : Method) (hid : req.id.isNull = false)
    (hmeth : req.method ≠ []) (hpar : ∀ p, req.params = some p → p.isNull = false) (hm : methods req.method = some m) :
    (∀ v, m.handle req = .ok (.inl v) → v.isNull = false →
      ∃ j, (serve methods (.value req.toJson)).1.toJson = .ok j ∧ responseFromJson j = .ok ⟨req.id, some v, none⟩) ∧
    (∀ e, m.handle req = .ok (.inr e) → -2 ^ 31 ≤ e.code → e.code < 2 ^ 31 →
      ∃ j e', (serve methods (.value req.toJson)).1.toJson = .ok j ∧ responseFromJson j = .ok ⟨req.id, none, some e'⟩ ∧
        e'.code = e.code ∧ e'.message = e.message) := by
  have hp : parseRequest (.value req.toJson) = .ok req := by
    obtain ⟨id, me, pa⟩ := req
    cases pa with
    | none =>
      exact (request_read _ _).2 ⟨rfl, hid, rfl, rfl, hmeth, rfl⟩
    | some p =>
      refine (request_read _ _).2 ⟨rfl, hid, rfl, rfl, hmeth, ?_⟩
      have h1 := hpar p rfl
      show some p = if p.isNull then none else some p
      rw [h1]; rfl
  have ho : ∀ (fs : List (String × Json)) k v, fs.lookup k = some v → v.isNull = false → getOptional (.obj fs) k = .ok (some v) := by
    intro fs k v h1 h2
    simp [getOptional, isNull_obj, Json.get, h1, h2, Res.ok_bind, Res.pure_eq]
  have hno : ∀ (fs : List (String × Json)) k, fs.lookup k = none → getOptional (.obj fs) k = .ok none := by
    intro fs k h1
    simp [getOptional, Json.isNull, Json.get, h1, Res.ok_bind, Res.pure_eq]
  constructor
  · intro v hv hvn
    refine ⟨.obj [("jsonrpc", .str (str "2.0")), ("id", req.id), ("result", v)], ?_, ?_⟩
    · rw [serve, hp]; simp only [hm, hv]; rfl
    · rw [responseFromJson, ho _ "id" req.id rfl hid, Res.ok_bind]
      dsimp only
      rw [ho _ "jsonrpc" (.str (str "2.0")) rfl rfl, Res.ok_bind]
      dsimp only
      rw [if_neg (by simp), ho _ "result" v rfl hvn, Res.ok_bind, hno _ "error" rfl, Res.ok_bind]
  · intro e he h1 h2
    refine ⟨.obj [("jsonrpc", .str (str "2.0")), ("id", req.id), ("error", .obj [("code", .int e.code), ("message", .str e.message),
      ("data", e.data.getD .null)])], ⟨e.code, e.message, if (e.data.getD .null).isNull then none else some (e.data.getD .null)⟩, ?_, ?_, rfl, rfl⟩
    · rw [serve, hp]; simp only [hm, he]; rfl
    · rw [responseFromJson, ho _ "id" req.id rfl hid, Res.ok_bind]
      dsimp only
      rw [ho _ "jsonrpc" (.str (str "2.0")) rfl rfl, Res.ok_bind]
      dsimp only
      rw [if_neg (by simp), hno _ "result" rfl, Res.ok_bind, ho _ "error" _ rfl rfl, Res.ok_bind]
      dsimp only
      have hc : toInt32 e.code = e.code := by rw [toInt32]; omega
      have hj : jsonInt64 (.int e.code) = .ok e.code := by rw [jsonInt64, if_pos (by omega)]
      have hE : errorFromJson (.obj [("code", .int e.code), ("message", .str e.message), ("data", e.data.getD .null)]) =
          .ok ⟨e.code, e.message, if (e.data.getD .null).isNull then none else some (e.data.getD .null)⟩ := by
        rw [errorFromJson]
        rw [show getRequired (.obj [("code", .int e.code), ("message", .str e.message), ("data", e.data.getD .null)]) "code" =
          .ok (.int e.code) from rfl, Res.ok_bind, hj, Res.ok_bind,
          show getRequired (.obj [("code", .int e.code), ("message", .str e.message), ("data", e.data.getD .null)]) "message" =
          .ok (.str e.message) from rfl, Res.ok_bind]
        simp only [Json.asString, Res.ok_bind]
        rw [show getOptional (.obj [("code", .int e.code), ("message", .str e.message), ("data", e.data.getD .null)]) "data" =
          .ok (if (e.data.getD .null).isNull then none else some (e.data.getD .null)) from rfl, Res.ok_bind, hc]
      rw [hE, Res.ok_bind]

/-! ## The log -/

/-- **C115**, what holds of secrets: of a request to a method that has secrets the log gets the name of the method, and the error if there
is one; the parameters and the result never.  The rest fails: `malformed_request_logged_violated`, `session_token_logged_violated`. -/
theorem secrets_not_logged_partial (methods : Bytes → Option Method) {body : ReqBody} {req : Request} {m : Method}
    (hp : parseRequest body = .ok req) (hm : methods req.method = some m) (hs : m.secrets = true) :
    (∀ v, m.handle req = .ok (.inl v) → (serve methods body).2 = [.madeWith req.method]) ∧
    (∀ e, m.handle req = .ok (.inr e) →
      (serve methods body).2 = [.madeWith req.method, .methodError req.method ⟨e.code, e.message, some (e.data.getD .null)⟩]) ∧
    (∀ f, m.handle req = .error f → (serve methods body).2 =
      [.madeWith req.method, .failure (match f with | .rpc x _ => x | .deser x => x | .api _ x => x | .other x => x)]) := by
  refine ⟨fun v h => ?_, fun e h => ?_, fun f h => ?_⟩
  · rw [serve, hp]; simp only [hm, h, hs]; rfl
  · rw [serve, hp]; simp only [hm, h, hs]; rfl
  · rw [serve, hp]; simp only [hm, h, hs]; cases f <;> rfl

/-- **C115** is violated: the body of a request that is not JSON, a login with a missing brace for one, is written to the log in full,
passwords included. -/
theorem malformed_request_logged_violated (methods : Bytes → Option Method) (raw : Bytes) :
    (serve methods (.unreadable raw)).2 = [.failure (str "Failed to parse json: " ++ raw)] := rfl

/-- **C115** is violated: the request of a method without secrets, which all methods that spend are, is written to the log with its
parameters, and so with the session token that lets its holder spend. -/
theorem session_token_logged_violated (methods : Bytes → Option Method) {body : ReqBody} {req : Request} {m : Method}
    (hp : parseRequest body = .ok req) (hm : methods req.method = some m) (hs : m.secrets = false) :
    LogLine.request req.toJson ∈ (serve methods body).2 := by
  rw [serve, hp]
  simp only [hm, hs]
  split <;> simp

/-! ## A concrete server -/

/-- A `login` that has secrets and fails for a short password, a `send` that throws as `SendHandler::GetSlateVersion` does
(SendHandler.h:98). -/
def demoMethods (name : Bytes) : Option Method :=
  if name = str "login" then
    some ⟨true, fun r => match r.params with
      | some (.str p) => if p.length < 3 then .error (.api (-5) (str "password")) else .ok (.inl (.str (str "token")))
      | _ => .error (.deser (str "params"))⟩
  else if name = str "send" then some ⟨false, fun _ => .error (.rpc (str "Slate version mismatch") none)⟩
  else none

/-- A request with an id. -/
def demoRequest (name : String) (params : Option Json) : Request := ⟨.int 7, str name, params⟩

/-- **C115** is violated: a payment to a receiver with old slates is answered with the id null. -/
theorem mismatch_id_violated :
    (serve demoMethods (.value (demoRequest "send" none).toJson)).1.id = .null ∧ (demoRequest "send" none).id = .int 7 := ⟨rfl, rfl⟩

example : (serve demoMethods (.value (demoRequest "login" (some (.str (str "secret")))).toJson)) =
    (.ofResult (.int 7) (.str (str "token")), [.madeWith (str "login")]) := rfl

example : parseRequest (.value (demoRequest "login" (some (.str (str "no")))).toJson) = .ok (demoRequest "login" (some (.str (str "no")))) ∧
    (serve demoMethods (.value (demoRequest "login" (some (.str (str "no")))).toJson)).1 = .ofError (.int 7) (-5) (str "password") ∧
    (serve demoMethods (.value (demoRequest "mine" none).toJson)).1 = .ofError (.int 7) (-32601) (str "Method not supported") ∧
    (serve demoMethods (.value (.obj [("id", .int 3), ("jsonrpc", .str (str "1.0"))]))).1.id = .int 3 :=
  ⟨rfl, rfl, rfl, rfl⟩

end Verif.Props
