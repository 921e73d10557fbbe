import struct
f32=lambda x:'0x%08X#32'%struct.unpack('>I',struct.pack('>f',x))[0]
f64=lambda x:'0x%016X#64'%struct.unpack('>Q',struct.pack('>d',x))[0]
def bv(w):
    return lambda x:'%d#%d'%(int(x)%(1<<w),w)
T={'Byte':(8,bv(8)),'Short':(16,bv(16)),'Int':(32,bv(32)),'Long':(64,bv(64)),'Float':(32,f32),'Double':(64,f64)}
o=[]
o.append('''import Verif.Gen.Types
import Verif.Link.Types5
import Verif.Model.Strings
/-!
The tests `types/*TypeTest.java` and `PackTest.java` on the code generated from `types/*.java`, and checks of the
JDK functions of `Verif/Gen/Jdk.lean` against values documented for the JDK.
**These are tests, not proofs**; see `Conformance/Containers.lean`.  Written by a script: floating-point
literals appear as their IEEE bits.
-/
namespace Verif.Conformance
open Verif Verif.Gen Verif.Gen.Types

/-- `list.sort(cmp)`: a stable sort with a comparator. -/
def insertBy {α : Type} (cmp : α → α → BitVec 32) (x : α) : List α → List α
  | [] => [x]
  | y :: l => if (cmp x y).toInt ≤ 0 then x :: y :: l else y :: insertBy cmp x l
def sortBy {α : Type} (cmp : α → α → BitVec 32) (l : List α) : List α := l.foldr (insertBy cmp) []
def sortOk {α : Type} (cmp : Except Err (α → α → BitVec 32)) (l : List α) : Option (List α) :=
  match cmp with | .ok c => some (sortBy c l) | .error _ => none
def testOk {α : Type} (p : Except Err (α → α → Bool)) (a b : α) : Option Bool :=
  match p with | .ok q => some (q a b) | .error _ => none
/-- the bytes and the result after a write -/
def written (r : Res Codec.Bytes (BitVec 32)) : Except Err (BitVec 32) × List (BitVec 8) := (r.out, r.state.toList)
/-- write at 1, then read at 1 -/
def roundTrip {α : Type} (n : Nat) (w : JM Codec.Bytes (BitVec 32)) (r : JM Codec.Bytes α) : Except Err (BitVec 32) × Except Err α :=
  ((w (Arr.create n 0)).out, (r (w (Arr.create n 0)).state).out)
''')
box={'Byte':'.num (.byte %s)','Short':'.num (.short %s)','Int':'.num (.int %s)','Long':'.num (.long %s)','Float':'.num (.float %s)','Double':'.num (.double %s)'}
preds=[('eq',1,1,1),('eq',1,0,0),('neq',1,1,0),('neq',1,0,1),('lt',1,1,0),('lt',1,0,0),('lt',0,1,1),('lte',1,1,1),('lte',1,0,0),('lte',0,1,1),('gt',1,1,0),('gt',1,0,1),('gt',0,1,0),('gte',1,1,1),('gte',1,0,1),('gte',0,1,0)]
B=['false','true']
nums={'Byte':[-128,127,0,-1,87],'Short':[-32768,32767,0,-1,11742],'Int':[-2**31,2**31-1,0,-1,1174259],'Long':[-2**63,2**63-1,0,-1,1174259259],'Float':[1.401298464324817e-45,3.4028234663852886e38,0,-1,1174259.257],'Double':[5e-324,1.7976931348623157e308,0,-1,1174259.257]}
D=' := by decide +kernel'
for t,(w,c) in T.items():
    o.append(f'/-! ### {t}TypeTest.java -/')
    isf=t in('Float','Double')
    obs=[box['Byte']%'5#8',box['Short']%'5#16',box['Int']%'5#32',box['Long']%'5#64']+([] if isf else [box['Float']%f32(5.2),box['Double']%f64(5.3)])
    o.append(f'/-- `shouldUnboxNumbers` -/\nexample : ([{", ".join(obs)}] : List Convert.JObj).map {t}Type.unbox =\n    List.replicate {len(obs)} (.ok {c(5)})'+D)
    if t=='Double': o.append(f'example : DoubleType.unbox ({box["Float"]%f32(5.2)}) = .ok {f64(struct.unpack(">f",struct.pack(">f",5.2))[0])}'+D)
    if t=='Float': o.append(f'example : FloatType.unbox ({box["Double"]%f64(5.2)}) = .ok {f32(5.2)}'+D)
    o.append('/-- `shouldCompare` -/')
    for m,e in [('ascending',[-4,1,2,3]),('descending',[3,2,1,-4]),('ascendingAbsolute',[1,2,3,-4]),('descendingAbsolute',[-4,3,2,1])]:
        o.append(f'example : sortOk ({t}Type.comparatorFor .{m}) [{", ".join(map(c,[3,-4,1,2]))}] = some [{", ".join(map(c,e))}]'+D)
    o.append('/-- `shouldTestPredicate` -/')
    l=', '.join(f'testOk ({t}Type.predicateFor .{m}) {c(a)} {c(b)}' for m,a,b,r in preds)
    o.append(f'example : [{l}] =\n    [{", ".join("some "+B[r] for *_,r in preds)}]'+D)
    if not isf:
        h=w//2 if w>8 else 8
        o.append('/-- `shouldEnableFlags`, `shouldDisableFlags` -/')
        M=(1<<(w-1))-1
        pat=0x5191919191919191&M
        a=0x2989898989898989&M; b=0x5111111111111111&M
        for v,bits in [(0,pat),(a,b),(M,0),(0,M)]:
            o.append(f'example : {t}Type.enableBits {c(v)} {c(bits)} = {c(v|bits)} ∧ {t}Type.disableBits {c(v)} {c(bits)} = {c(v&~bits)}'+D)
    n=w//8
    o.append('/-- `ReadWriteArrayTests`: the bytes are those of `ByteBuffer.put` -/')
    fmt={'Byte':'b','Short':'h','Int':'i','Long':'q','Float':'f','Double':'d'}[t]
    for v in nums[t]:
        be=struct.pack('>'+fmt,v); le=struct.pack('<'+fmt,v)
        for s,by in(('BE',be),('LE',le)):
            by=[0]+list(by)+[0]
            o.append(f'example : written ({t}Type.write{s} 1#32 {c(v)} (Arr.create {n+2} 0)) = (.ok {n+1}#32, [{", ".join(str(x)+"#8" for x in by)}]) ∧\n    (roundTrip {n+2} ({t}Type.write{s} 1#32 {c(v)}) ({t}Type.read{s} 1#32)).2 = .ok {c(v)}'+D)
    o.append('/-- `ConvertTests` -/')
    if not isf:
        o.append(f'example : ([{", ".join(obs)}, .bool true, .bool false, .string [49#16, 50#16, 51#16], .null] : List Convert.JObj).map {t}Type.convert =\n    List.replicate {len(obs)} (.ok {c(5)}) ++ [.ok {c(1)}, .ok {c(0)}, .ok {c(123)}, .ok {c(0)}]'+D)
    else:
        o.append(f'example : let env : Jdk.Env := ⟨fun _ => .ok 0, fun _ => .ok 0, fun _ => []⟩\n    {t}Type.convert env (.bool true) = .ok {c(1)} ∧ {t}Type.convert env (.bool false) = .ok {c(0)} ∧\n    {t}Type.convert env .null = .ok {c(0)} := by decide +kernel')
    if t=='Int':
        o.append('''example : IntType.convert (.localDate ⟨2015, 4, 12⟩) = .ok 20150412#32 ∧
    IntType.convert (.localTime ⟨20, 5, 13, 0⟩) = .ok 200513#32 ∧
    IntType.toLocalDate 20150412#32 = .ok ⟨2015, 4, 12⟩ ∧ IntType.toLocalTime 200513#32 = .ok ⟨20, 5, 13, 0⟩'''+D)
o.append('''/-! ### CharTypeTest.java -/''')
for v in [0,65535,65,60259]:
    for s,by in(('BE',struct.pack('>H',v)),('LE',struct.pack('<H',v))):
        by=[0]+list(by)+[0]
        o.append(f'example : written (CharType.write{s} 1#32 {v}#16 (Arr.create 4 0)) = (.ok 3#32, [{", ".join(str(x)+"#8" for x in by)}]) ∧\n    (roundTrip 4 (CharType.write{s} 1#32 {v}#16) (CharType.read{s} 1#32)).2 = .ok {v}#16'+D)
o.append('''/-! ### BoolTypeTest.java -/
example : BoolType.unbox (.bool true) = .ok true ∧ BoolType.unbox (.bool false) = .ok false := by decide +kernel
/-- `shouldCompare`: ascending puts `true` first -/
example : sortOk (BoolType.comparatorFor .ascending) [true, false, true] = some [true, true, false] ∧
    sortOk (BoolType.comparatorFor .descending) [true, false, true] = some [false, true, true] := by decide +kernel
example : [testOk (BoolType.predicateFor .eq) false false, testOk (BoolType.predicateFor .eq) true true,
      testOk (BoolType.predicateFor .eq) true false, testOk (BoolType.predicateFor .neq) false false,
      testOk (BoolType.predicateFor .neq) true true, testOk (BoolType.predicateFor .neq) true false] =
    [some true, some true, some false, some false, some false, some true] := by decide +kernel
example : ([true, false] : List Bool).map (fun b => (roundTrip 3 (BoolType.writeBE 1#32 b) (BoolType.readBE 1#32),
      roundTrip 3 (BoolType.writeLE 1#32 b) (BoolType.readLE 1#32))) =
    ([true, false] : List Bool).map (fun b => ((.ok 2#32, .ok b), (.ok 2#32, .ok b))) := by decide +kernel
example : ([%s, .num (.int 0#32), .string [116#16, 114#16, 117#16, 101#16],
      .string [102#16, 97#16, 108#16, 115#16, 101#16], .null, .bool true, .bool false] : List Convert.JObj).map BoolType.convert =
    List.replicate 6 (.ok true) ++ [.ok false, .ok true, .ok false, .ok false, .ok true, .ok false] := by decide +kernel
'''%', '.join([box['Byte']%'5#8',box['Short']%'5#16',box['Int']%'5#32',box['Long']%'5#64',box['Float']%f32(5.2),box['Double']%f64(5.3)]))
ci='[%s]'%', '.join(bv(32)(x) for x in[-2**31,2**31-1,0,-1,1,87367635])
cs='[%s]'%', '.join(bv(16)(x) for x in[-2**15,2**15-1,0,-1,1,8736])
cb='[%s]'%', '.join(bv(8)(x) for x in[-128,127,0,-1,1,87])
o.append(f'''/-! ### PackTest.java -/
example : ({ci} : List (BitVec 32)).all (fun hi => ({ci} : List (BitVec 32)).all fun lo =>
    Pack.unpackHiInt (Pack.packToLong hi lo) == hi && Pack.unpackLoInt (Pack.packToLong hi lo) == lo) = true := by decide +kernel
example : ({cs} : List (BitVec 16)).all (fun hi => ({cs} : List (BitVec 16)).all fun lo =>
    Pack.unpackHiShort (Pack.packToInt2 hi lo) == hi && Pack.unpackLoShort (Pack.packToInt2 hi lo) == lo) = true := by decide +kernel
example : ({cb} : List (BitVec 8)).all (fun hi => ({cb} : List (BitVec 8)).all fun lo =>
    Pack.unpackHiByte (Pack.packToShort hi lo) == hi && Pack.unpackLoByte (Pack.packToShort hi lo) == lo) = true := by decide +kernel
example : ({cb} : List (BitVec 8)).all (fun a => ({cb} : List (BitVec 8)).all fun b =>
    ({cb} : List (BitVec 8)).all fun c => ({cb} : List (BitVec 8)).all fun d =>
      let p := Pack.packToInt4 a b c d
      Pack.unpackHiByte (Pack.unpackHiShort p) == a && Pack.unpackLoByte (Pack.unpackHiShort p) == b &&
      Pack.unpackHiByte (Pack.unpackLoShort p) == c && Pack.unpackLoByte (Pack.unpackLoShort p) == d) = true := by decide +kernel
''')
# JDK floats: rounding double->float and int/long->float/double, checked against python
import random
random.seed(7)
import math
def d2f(x):
    try: return struct.unpack('>I',struct.pack('>f',x))[0]
    except OverflowError: return 0x7F800000 if x>0 else 0xFF800000
ds=[0.1,1/3,1e-45,7e-46,1.1754943e-38,1e-40,3.4028235677973366e38,3.4028235e38,1e300,-1e300,16777217.0,16777219.0,-0.0,1e-310,2.0**-149,2.0**-150,3*2.0**-150,1+2.0**-24,1+3*2.0**-24]
ds+=[random.uniform(-1,1)*10**random.randint(-44,38) for _ in range(20)]
o.append('/-! ### the JDK conversions, checked against IEEE arithmetic computed elsewhere (the platform\'s C library) -/')
o.append('example : ([%s] : List (BitVec 64)).map Convert.doubleToFloat =\n    [%s]'%(', '.join('0x%016X#64'%struct.unpack('>Q',struct.pack('>d',x))[0] for x in ds),', '.join('0x%08X#32'%d2f(x) for x in ds))+D)
import ctypes
ls=[0,1,-1,2**53+1,2**53+3,2**63-1,-2**63,-(2**53)-1,2**62+2**8,2**62+2**9,2**62+2**9+1,123456789012345678]+[random.randint(-2**63,2**63-1) for _ in range(12)]
o.append('example : ([%s] : List (BitVec 64)).map (fun x => Convert.intToDouble x.toInt) =\n    [%s]'%(', '.join('%d#64'%(x%2**64) for x in ls),', '.join(f64(float(x)) for x in ls))+D)
# long->float directly (single rounding): exact via fractions
def l2f(x):
    # round-half-even to 24 bits
    if x==0: return 0
    s=x<0; a=abs(x); e=a.bit_length()
    if e>24:
        sh=e-24; q,r=divmod(a,1<<sh); h=1<<(sh-1)
        if r>h or (r==h and q&1): q+=1
        a=q<<sh
    v=struct.unpack('>I',struct.pack('>f',float(a)))[0]
    return v|(0x80000000 if s else 0)
ls2=ls+[2**60+2**36,2**60+2**36+1,2**60+3*2**36,2**24+1,2**24+3]
o.append('example : ([%s] : List (BitVec 64)).map (fun x => Convert.intToFloat x.toInt) =\n    [%s]'%(', '.join('%d#64'%(x%2**64) for x in ls2),', '.join('0x%08X#32'%l2f(x) for x in ls2))+D)
is_=[0,1,-1,2**24+1,2**24+3,2**31-1,-2**31,33554435]+[random.randint(-2**31,2**31-1) for _ in range(8)]
o.append('example : ([%s] : List (BitVec 32)).map (fun x => Convert.intToFloat x.toInt) =\n    [%s]'%(', '.join('%d#32'%(x%2**32) for x in is_),', '.join('0x%08X#32'%l2f(x) for x in is_))+D)
fs=[5.9,-5.9,0.99,-0.99,1e10,-1e10,2147483648.0,-2147483648.0,2147483520.0]
o.append('/-- `(int) f` truncates and saturates; NaN gives 0. -/\nexample : ([%s, 0x7FC00000#32, 0x7F800000#32, 0xFF800000#32] : List (BitVec 32)).map Convert.floatToInt =\n    [%s, 0#32, 0x7FFFFFFF#32, 0x80000000#32]'%(', '.join(f32(x) for x in fs),', '.join('%d#32'%(max(-2**31,min(2**31-1,int(struct.unpack(">f",struct.pack(">f",x))[0])))%2**32) for x in fs))+D)
o.append('''/-- leap years and the lengths of months, from the ISO calendar -/
example : ([1900, 2000, 2023, 2024, 0, -4, 2100, 2400] : List Int).map Dates.leap =
    [false, true, false, true, true, true, false, true] ∧
    ([1, 2, 3, 4, 5, 6, 7, 8, 9, 10, 11, 12] : List Int).map (Dates.monthLength 2023) =
      [31, 28, 31, 30, 31, 30, 31, 31, 30, 31, 30, 31] ∧ Dates.monthLength 2024 2 = 29 := by decide +kernel
/-- `"hello".hashCode()` is 99162322, `"".hashCode()` is 0, `"polygenelubricants".hashCode()` is MIN_VALUE -/
example : (Strings.hashCode [%s]).toInt = 99162322 ∧ Strings.hashCode [] = 0 ∧
    (Strings.hashCode [%s]).toInt = -2147483648 := by decide +kernel
'''%(', '.join('%d#16'%ord(c) for c in 'hello'),', '.join('%d#16'%ord(c) for c in 'polygenelubricants')))
o.append('end Verif.Conformance')
open('/verif/lean/Verif/Conformance/Types.lean','w').write('\n'.join(o)+'\n')
