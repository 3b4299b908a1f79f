import Verif.Text
/-
Model of the `csvp` crate (csvp/src/*.rs): the CSV parser used for the csv section.

`&mut self` becomes explicit state: the remaining characters (`List Char`) and the counters `Cur`.
Panics are the explicit error `Err.panic`; loops that are not structurally recursive take fuel and
return `Err.fuel` when it runs out (theorem `C01_no_panic` shows neither ever happens).
Not modelled: Rust's finite call stack (the recursive descent recurses once per character) and the
64-bit wrap-around of the counters.
-/
namespace Verif.Csvp
open Verif

/-- csvp/src/source_position.rs:4-8 `SourcePosition`. -/
structure SrcPos where
  line : Nat
  off : Nat
deriving DecidableEq, Repr

/-- a1::Address as used by csvp (`(col, row).into()`, csvp/src/parser.rs:125). -/
structure Addr where
  x : Nat
  y : Nat
deriving DecidableEq, Repr

/-- csvp/src/config.rs:5-8 `Config`. -/
structure Config where
  sep : Char
  above : Nat
deriving DecidableEq, Repr

/-- csvp/src/field.rs:4-15 `Field`. -/
structure Field where
  addr : Addr
  value : Text
  positions : List SrcPos
deriving DecidableEq, Repr

/-- csvp/src/field_builder.rs:4-8 `FieldBuilder`. -/
structure FB where
  addr : Addr
  value : Text
  positions : List SrcPos
deriving DecidableEq, Repr

/-- Which of the two messages of csvp/src/parser.rs:205,238 a ParseError carries. -/
inductive Msg where
  | quotedEof
  | trailing (c : Char)
deriving DecidableEq, Repr

/-- csvp/src/error.rs:6-12 `Error::ParseError`, plus the model-only outcomes `panic`
(csvp/src/parser.rs:60) and `fuel` (the model's loop bound was too small). -/
inductive Err where
  | parse (badInput : Text) (msg : Msg) (pos : SrcPos)
  | panic
  | fuel
deriving DecidableEq, Repr

/-- The counters `source_line`, `source_offset` of csvp/src/parser.rs:24-29. -/
structure Cur where
  line : Nat
  off : Int
deriving DecidableEq, Repr

/-- csvp/src/parser.rs:70-78 `Parser::new`: line 0, offset -1. -/
def Cur.init : Cur := ⟨0, -1⟩

/-- csvp/src/parser.rs:247-259 `consume_char`: the counters after consuming `c`. -/
def Cur.adv (p : Cur) (c : Char) : Cur :=
  if c = '\n' then ⟨p.line + 1, 0⟩ else ⟨p.line, p.off + 1⟩

/-- csvp/src/parser.rs:55-63: conversion to `SourcePosition`, panicking on a negative offset. -/
def toPos (cfg : Config) (p : Cur) : Except Err SrcPos :=
  if p.off < 0 then .error .panic else .ok ⟨p.line + cfg.above, p.off.toNat⟩

/-- csvp/src/field_builder.rs:29-32 `push`. -/
def FB.push (cfg : Config) (fb : FB) (c : Char) (p : Cur) : Except Err FB := do
  let pos ← toPos cfg p
  return { fb with value := fb.value ++ [c], positions := fb.positions ++ [pos] }

/-- csvp/src/field_builder.rs:10-18 `From<FieldBuilder> for Field`. -/
def FB.finish (fb : FB) : Field := ⟨fb.addr, trim fb.value, fb.positions⟩

/-- csvp/src/parser.rs:261-267 `parse_error`. -/
def parseError (cfg : Config) (msg : Msg) (rest : Text) (p : Cur) : Err :=
  match toPos cfg p with
  | .error e => e
  | .ok pos => .parse (rest.take 10) msg pos

/-- csvp/src/parser.rs:31-36 `FieldResult`, with the parser state after it. -/
inductive FR where
  | some (f : Field) (rest : Text) (p : Cur)
  | last (f : Field) (rest : Text) (p : Cur)
  | eof (p : Cur)
deriving DecidableEq, Repr

/-- csvp/src/parser.rs:231-245 `parse_rest_of_quoted_field`. -/
def parseRest (cfg : Config) (fb : FB) : Text → Cur → Except Err FR
  | [], p => .ok (.last fb.finish [] p)
  | c :: cs, p =>
    if isWs c then parseRest cfg fb cs (p.adv c)
    else if c = cfg.sep then .ok (.some fb.finish cs (p.adv c))
    else .error (parseError cfg (.trailing c) cs (p.adv c))

/-- csvp/src/parser.rs:193-226 `parse_quoted_field`; the flag is `escape_mode`. -/
def parseQuoted (cfg : Config) : Bool → FB → Text → Cur → Except Err FR
  | true, _, [], p => .error (parseError cfg .quotedEof [] p)
  | true, fb, c :: cs, p =>
    match fb.push cfg c (p.adv c) with
    | .error e => .error e
    | .ok fb => parseQuoted cfg false fb cs (p.adv c)
  | false, fb, [], p => .ok (.some fb.finish [] p)
  | false, fb, c :: cs, p =>
    if c = '"' then
      if cs.head? = some '"' then parseQuoted cfg true fb cs (p.adv c)
      else parseRest cfg fb cs (p.adv c)
    else
      match fb.push cfg c (p.adv c) with
      | .error e => .error e
      | .ok fb => parseQuoted cfg false fb cs (p.adv c)

/-- csvp/src/parser.rs:176-191 `parse_unquoted_field`. -/
def parseUnquoted (cfg : Config) : FB → Text → Cur → Except Err FR
  | fb, [], p => .ok (.last fb.finish [] p)
  | fb, '\\' :: '\n' :: cs, p => parseUnquoted cfg fb cs ((p.adv '\\').adv '\n')
  | fb, c :: cs, p =>
    if c = cfg.sep then .ok (.some fb.finish cs (p.adv c))
    else if c = '\n' then .ok (.last fb.finish cs (p.adv c))
    else
      match fb.push cfg c (p.adv c) with
      | .error e => .error e
      | .ok fb => parseUnquoted cfg fb cs (p.adv c)

/-- csvp/src/parser.rs:145-153 `consume_whitespace`. -/
def consumeWs : Text → Cur → Text × Cur
  | [], p => ([], p)
  | c :: cs, p => if c ≠ '\n' ∧ isWs c then consumeWs cs (p.adv c) else (c :: cs, p)

/-- csvp/src/parser.rs:155-174 `parse_field`.  The leading `consume_whitespace` loop is inlined into
the recursion (so that Lean sees structural recursion); `parseField_consumeWs` proves that this is
the code's "skip whitespace, then match". -/
def parseField (cfg : Config) (fb : FB) : Text → Cur → Except Err FR
  | [], p => .ok (.eof p)
  | '\\' :: '\n' :: cs, p =>
    if '\\' = cfg.sep then .ok (.some fb.finish ('\n' :: cs) (p.adv '\\'))
    else parseField cfg fb cs ((p.adv '\\').adv '\n')
  | c :: cs, p =>
    if c ≠ '\n' ∧ isWs c then parseField cfg fb cs (p.adv c)
    else if c = cfg.sep then .ok (.some fb.finish cs (p.adv c))
    else if c = '\n' then .ok (.last fb.finish cs (p.adv c))
    else if c = '"' then parseQuoted cfg false fb cs (p.adv c)
    else
      match fb.push cfg c (p.adv c) with
      | .error e => .error e
      | .ok fb => parseUnquoted cfg fb cs (p.adv c)

/-- csvp/src/parser.rs:103-110 `consume_and_ignore_line`. -/
def ignoreLine : Text → Cur → Text × Cur
  | [], p => ([], p)
  | c :: cs, p => if c = '\n' then (cs, p.adv c) else ignoreLine cs (p.adv c)

/-- csvp/src/parser.rs:48-53 `RecordResult`, with the parser state after it. -/
inductive RR where
  | comment (rest : Text) (p : Cur)
  | eof (p : Cur)
  | some (r : List Field) (rest : Text) (p : Cur)
deriving DecidableEq, Repr

/-- csvp/src/parser.rs:124-140: the field loop of `parse_record`. -/
def fieldsLoop (cfg : Config) (row : Nat) : Nat → Nat → List Field → Text → Cur → Except Err RR
  | 0, _, _, _, _ => .error .fuel
  | n + 1, col, acc, cs, p =>
    match parseField cfg ⟨⟨col, row⟩, [], []⟩ cs p with
    | .error e => .error e
    | .ok (.some f rest p') => fieldsLoop cfg row n (col + 1) (acc ++ [f]) rest p'
    | .ok (.last f rest p') => .ok (.some (acc ++ [f]) rest p')
    | .ok (.eof p') => if acc.isEmpty then .ok (.eof p') else .ok (.some acc [] p')

/-- csvp/src/parser.rs:116-143 `parse_record`. -/
def parseRecord (cfg : Config) (row : Nat) (cs : Text) (p : Cur) : Except Err RR :=
  if cs.head? = some '#' then
    let (rest, p') := ignoreLine cs p
    .ok (.comment rest p')
  else fieldsLoop cfg row (cs.length + 1) 0 [] cs p

/-- csvp/src/parser.rs:86-95: the record loop of `Parser::parse`. -/
def recordsLoop (cfg : Config) : Nat → Nat → List (List Field) → Text → Cur →
    Except Err (List (List Field))
  | 0, _, _, _, _ => .error .fuel
  | n + 1, row, acc, cs, p =>
    match parseRecord cfg row cs p with
    | .error e => .error e
    | .ok (.comment rest p') => recordsLoop cfg n row acc rest p'
    | .ok (.some r rest p') => recordsLoop cfg n (row + 1) (acc ++ [r]) rest p'
    | .ok (.eof _) => .ok acc

/-- csvp/src/parser.rs:81-83: the leading newlines. -/
def skipNewlines : Text → Cur → Text × Cur
  | [], p => ([], p)
  | c :: cs, p => if c = '\n' then skipNewlines cs (p.adv c) else (c :: cs, p)

/-- csvp/src/parser.rs:80-97,275-277 `parse`. -/
def parse (cfg : Config) (input : Text) : Except Err (List (List Field)) :=
  let (cs, p) := skipNewlines input Cur.init
  recordsLoop cfg (cs.length + 1) 0 [] cs p

/-- csvp/src/field.rs:22-28 `position_for_offset`. -/
def Field.positionForOffset (f : Field) (o : Nat) : Option SrcPos :=
  if o ≥ f.positions.length then none else f.positions[o]?

/-- csvp/src/field.rs:31-36 `eof_position`. -/
def Field.eofPosition (f : Field) : Option SrcPos :=
  f.positions.getLast?.map fun p => { p with off := p.off + 1 }

end Verif.Csvp
