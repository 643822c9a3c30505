import Verif.Model.Xml
/-
Reading XML in pieces: /repo/ngoschema/utils/xmltodict.py 199-351 `parse` with `item_depth` and `item_callback`, and
92-155 `startElement`, `endElement` with an `item_depth`.

Simplifications: events, texts and the other options as in `Verif.Xml`. The callback is handed the list `self.path`
itself; here it gets the path as it is at the time of the call. What the callback returns may depend on the calls before.
-/
namespace Verif.XmlStream
open Xml

/-- `self.path`: names and attributes of the open elements, outermost first. -/
abbrev Path := List (Str × AList Str Str)

/-- What the callback is called with; `none` is None. -/
structure Call where
  path : Path
  item : Option Val
  deriving DecidableEq

/-- The handler: `buf` is the text expat has not delivered yet, `calls` those made so far, `stopped` whether
ParsingInterrupted was raised. -/
structure S where
  path : Path
  buf : Str
  h : H
  calls : List Call
  stopped : Bool
  deriving DecidableEq

/-- xmltodict.py 92-115 `startElement`: outside the items nothing is remembered. -/
def start (depth : Nat) (s : S) (name : Str) (attrs : AList Str Str) : S :=
  let path := s.path ++ [(name, attrs)]
  let h := flush s.buf s.h
  { s with path := path, buf := [], h := if path.length > depth then startElement h attrs else h }

/-- xmltodict.py 120-123: the item. -/
def item (h : H) : Option Val :=
  match h.item with
  | some d => some (.dict d)
  | none => if h.data = [] then none else some (.str h.data.flatten)

/-- xmltodict.py 117-155 `endElement`; `cb`: what the callback returns, for the calls up to the present one. -/
def stop (fl : Str → Bool) (depth : Nat) (cb : List Call → Bool) (s : S) (name : Str) : S :=
  let h := flush s.buf s.h
  let calls := if s.path.length = depth then s.calls ++ [⟨s.path, item h⟩] else s.calls
  if s.path.length = depth ∧ cb calls = false then { s with buf := [], h := h, calls := calls, stopped := true }
  else { s with path := s.path.dropLast, buf := [], h := endElement fl h name, calls := calls }

/-- One event; nothing is read once the parser has stopped. -/
def feed (fl : Str → Bool) (depth : Nat) (cb : List Call → Bool) (s : S) (e : Event) : S :=
  if s.stopped then s
  else match e with
    | .start name attrs => start depth s name attrs
    | .chars t => { s with buf := s.buf ++ t }
    | .stop name => stop fl depth cb s name

def init : S := ⟨[], [], ⟨none, [], []⟩, [], false⟩

/-- The handler at the end of a document. -/
def run (fl : Str → Bool) (depth : Nat) (cb : List Call → Bool) (evs : List Event) : S :=
  evs.foldl (feed fl depth cb) init

/-- xmltodict.py 199-351 `parse`: ParsingInterrupted, or `handler.item`. -/
def parse (fl : Str → Bool) (depth : Nat) (cb : List Call → Bool) (evs : List Event) : Res (Option Dict) :=
  let s := run fl depth cb evs
  if s.stopped then .error .exception else .ok s.h.item

end Verif.XmlStream
