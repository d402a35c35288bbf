import Verif.Model.IndexOrder
import Verif.Model.PyRequest

/-!
# The text gribjump-dump-info prints

Models the `print` functions of `/repo/src/gribjump/info/*.cc`.  The stream is `std::cout` as the tool finds it: numbers in
decimal notation.  How a `double` is printed (six digits) is the parameter `shown`.
-/

namespace GJ

def natText (n : Nat) : Str := (toString n).toList

/-- A field: its name, `=`, its value and a comma. -/
def fieldText (name : String) (value : Str) : Str := name.toList ++ '=' :: (value ++ [','])

/-- `JumpInfo::print`, JumpInfo.cc:156-173, up to the packing type. -/
def baseText (shown : UInt64 → Str) (b : JumpInfo) : Str :=
  fieldText "version" (natText b.version) ++ (fieldText "referenceValue" (shown b.referenceValue) ++
  (fieldText "binaryScaleFactor" (pyStr b.binaryScaleFactor) ++ (fieldText "decimalScaleFactor" (pyStr b.decimalScaleFactor) ++
  (fieldText "editionNumber" (natText b.editionNumber) ++ (fieldText "bitsPerValue" (natText b.bitsPerValue) ++
  (fieldText "offsetBeforeData" (natText b.offsetBeforeData) ++ (fieldText "offsetAfterData" (natText b.offsetAfterData) ++
  (fieldText "offsetBeforeBitmap" (natText b.offsetBeforeBitmap) ++ (fieldText "numberOfValues" (natText b.numberOfValues) ++
  (fieldText "numberOfDataPoints" (natText b.numberOfDataPoints) ++ (fieldText "totalLength" (natText b.totalLength) ++
  (fieldText "sphericalHarmonics" (pyStr b.sphericalHarmonics) ++ (fieldText "md5GridSection" b.md5GridSection.toList ++
  ("packingType=".toList ++ b.packingType.toList))))))))))))))

/-- `CcsdsInfo::print`, CcsdsInfo.cc:98-105, after the base: the number of offsets, not the offsets. -/
def extText (x : CcsdsExt) : Str :=
  ',' :: (fieldText "ccsdsFlags" (natText x.flags) ++ (fieldText "ccsdsBlockSize" (natText x.blockSize) ++
  (fieldText "ccsdsRsi" (natText x.rsi) ++ ("ccsdsOffsets.size=".toList ++ natText x.offsets.length))))

/-- `print` of the class: SimpleInfo.cc:29-32, CcsdsInfo.cc:98-105, UnsupportedInfo.cc:30-33. -/
def infoText (shown : UInt64 → Str) : Info → Str
  | .simple b => "SimpleInfo,".toList ++ baseText shown b
  | .ccsds b x => "CcsdsInfo,".toList ++ (baseText shown b ++ extText x)
  | .unsupported b => "UnsupportedInfo,".toList ++ baseText shown b

/-- A line of `IndexFile::print`, InfoCache.cc:445. -/
def entryLine (shown : UInt64 → Str) (e : Nat × Info) : Str :=
  "  Offset:".toList ++ (natText e.1 ++ " -> ".toList ++ infoText shown e.2)

/-- The first line, InfoCache.cc:443. -/
def headLine (d : Dumped) : Str :=
  "IndexFile[".toList ++ (d.path.toList ++ (" (".toList ++ natText d.count ++ " entries)]:".toList))

/-- `IndexFile::print`, InfoCache.cc:441-447. -/
def indexLines (shown : UInt64 → Str) (d : Dumped) : List Str := headLine d :: d.entries.map (entryLine shown)

def dumpLines (shown : UInt64 → Str) (ds : List Dumped) : List Str := ds.flatMap (indexLines shown)

/-- Everything the tool prints, gribjump-dump-info.cc:40-49; `std::endl` after every line. -/
def dumpText (shown : UInt64 → Str) (ds : List Dumped) : Str := (dumpLines shown ds).flatMap fun l => l ++ ['\n']

end GJ
