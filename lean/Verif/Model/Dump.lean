import Verif.Model.LinkNet
/-! # The dump client (network/protocols/vsockets.py:425-438) -/
namespace Verif.Link

/-- A field of `PacketFields.__init__`: the keyword argument with its name, or unset (PacketFields.py:7-12). -/
def kw (args : List (String × Val)) (name : String) (r : FVals) : FVals :=
  match args.find? (fun a => a.1 = name) with
  | some a => .set a.2 r
  | none => .unset r

/-- `WirePacket(**args)` (PacketFields.py:7-12): keyword arguments that are no field are ignored. The values are taken to be of the types of the fields. -/
def wireKw (c : Classes) (args : List (String × Val)) : Val :=
  .packet c.wire (kw args "source" (kw args "sourcePort" (kw args "destination" (kw args "destinationPort" (kw args "fragData" (kw args "data" .nil))))))

/-- `VNICDumpProtocol.write` (vsockets.py:434-438): the bytes it writes, or the exception. The second argument is the source port; it is passed on
under the name `sourceAddress`. -/
def dumpWrite (c : Classes) (source : Str) (sourcePort : Int) (destination : Str) (destinationPort : Int) (data : Bytes) : Except Err Bytes :=
  framedSerialize c.env 0 (wireKw c [("source", .str source), ("sourceAddress", .num sourcePort), ("destination", .str destination),
    ("destinationPort", .num destinationPort), ("data", .buf data)])

end Verif.Link
