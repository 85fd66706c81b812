#!/usr/bin/env python3
"""Generates lean/Verif/Tables.lean: kernel-checked comparisons of the model with the IEEE 802.15.4g example tables
shipped in /repo/sun_phy/tests/tables (the data of the repository's own tests).  These are tests of the model, not
properties."""
T='/repo/sun_phy/tests/tables/'
def col(f):
    r=[]
    for l in open(T+f):
        if l.startswith('#') or not l.strip(): continue
        r+= [int(float(x)) for x in l.strip().split(',') if x]
    return r
def bits(l): 
    assert set(l)<={0,1}
    return f"natBits {len(l)} 0b{''.join(map(str,l))}"
out=["""import Verif.Model.MrOfdm
import Verif.Model.MrFsk
import Verif.Model.MrOqpsk
/-
GENERATED by tools/gen_tables.py.  Validation of the model against the example tables of IEEE 802.15.4g that the
repository's tests use (`sun_phy/tests/tables`, `test_802_15_4g_{L,M,N,O}.py`).  Each `example` evaluates the model on
the literal message of the standard in the kernel.  They are tests of the model's fidelity, not proofs of properties.
-/
namespace SunPhy.Tables
set_option maxRecDepth 100000
"""]
msg=col('L.1.csv')
out.append(f"def msgL : List UInt8 := {msg}\n")
out.append("def bitsL : Bits := msgL.flatMap fun b => byteBits b.toNat\n")
out.append("example : toBinaryArray (.bytes msgL) = .ok bitsL := by decide +kernel\n")
for il,(h,he,hi,ps,pe,pi) in [(0,('L.2','L.3','L.4','L.7','L.8','L.9')),(1,('M.1','M.2','M.3','M.6','M.7','M.8'))]:
    p="p%d"%il
    out.append(f"def {p} : OfdmParams := {{ mcs := 3, option := 2, interleaving := {il}, scrambler := 0 }}\n")
    out.append(f"example : mrOfdmInit (.int 3) (.int 2) (.bool {'true' if il else 'false'}) (.int 0) = .ok {p} := by decide +kernel\n")
    out.append(f"/-- {h} -/\nexample : {p}.phyHeader bitsL.length = .ok ({bits(col(h+'.csv'))}) := by decide +kernel\n")
    out.append(f"/-- {he} -/\nexample : {p}.phyHeaderEncoded bitsL.length = .ok ({bits(col(he+'.csv'))}) := by decide +kernel\n")
    out.append(f"/-- {hi} -/\nexample : {p}.phyHeaderInterleaved bitsL.length = .ok ({bits(col(hi+'.csv'))}) := by decide +kernel\n")
    def fl(l): return f"({bits(l[:48])}, {bits(l[-48:])})"
    out.append("/-- first and last 48 entries -/\ndef ends%d (l : Bits) : Bits × Bits := (l.take 48, l.drop (l.length - 48))\n"%il)
    out.append(f"/-- {ps} -/\nexample : ends{il} ({p}.payloadScrambled bitsL) = {fl(col(ps+'.csv'))} := by decide +kernel\n")
    out.append(f"/-- {pe} -/\nexample : ({p}.payloadEncoded bitsL).map ends{il} = .ok {fl(col(pe+'.csv'))} := by decide +kernel\n")
    out.append(f"/-- {pi} -/\nexample : ({p}.payloadInterleaved bitsL).map ends{il} = .ok {fl(col(pi+'.csv'))} := by decide +kernel\n")
# N
n=col('N.1.csv')
out.append(f"def bitsN : Bits := ([{', '.join(map(str,n))}] : List Nat).flatMap byteBits\n")
out.append("def argN : Arg := .ndarray ⟨1, bitsN.map fun b => if b then 1 else 0⟩\n")
out.append("def oN : OqpskObj := { params := { band := .b470, rm := 0, sm := 0, sps := 10 } }\n")
out.append("def afterN : OqpskObj := ((oqpskChips argN).call oN).2\n")
out.append(f"example : oN.params.shr = {bits(col('N.1_SHR.csv'))} := by decide +kernel\n")
out.append(f"example : oN.params.phr (bitsN.length / 8) = .ok ({bits(col('N.3.csv'))}) := by decide +kernel\n")
for attr,f in [('shr_bde','N.1_SHR_BDE'),('cSHR','N.2'),('phr_encoded','N.4_PHR_encoded'),('phr_interleaved','N.4_PHR_interleaved'),('phr_bde','N.4_PHR_BDE'),('cPHR','N.4'),('PSDU_encoded','N.5_PSDU_encoded'),('PSDU_interleaved','N.5_PSDU_interleaved'),('PSDU_BDE','N.5_PSDU_BDE'),('cPSDU','N.5')]:
    out.append(f"/-- {f} -/\nexample : afterN.{attr} = some ({bits(col(f+'.csv'))}) := by decide +kernel\n")
# O
psdu='01000000000000000101011001011101001010011111101000101000'
out.append(f"def bitsO : Bits := natBits {len(psdu)} 0b{psdu}\n")
out.append("def argO : Arg := .ndarray ⟨1, bitsO.map fun b => if b then 1 else 0⟩\n")
import re
src=open('/repo/sun_phy/tests/test_802_15_4g_O.py').read()
d=re.search(r"MODULATOR_PARAMETERS = \{.*?^\}",src,re.S|re.M).group(0)
ns={}; exec(d,ns); MP=ns['MODULATOR_PARAMETERS']
B=lambda b:'true' if b else 'false'
for i,q in MP.items():
    out.append(f"def pO{i} : FskParams := {{ symbolRate := {int(q['symbolRate'])}, modIndex := {q['FSKModulationIndex']}, sfd := {q['phyMRFSKSFD']}, modulation := .{'FSK2' if q['modulation']=='2FSK' else 'FSK4'}, fecEnabled := {B(q['phyFSKFECEnabled'])}, fecScheme := {q['phyFSKFECScheme']}, fcsType := {q['macFCSType']}, scramble := {B(q['phyFSKScramblePSDU'])}, interleaving := {B(q['phyFSKFECInterleavingRSC'])}, preambleLength := {q['phyFSKPreambleLength']} }}\n")
    fl=f"(.float {int(q['symbolRate'])})"
    out.append(f"example : mrFskInit {fl} (.int {q['FSKModulationIndex']}) (.int {q['phyMRFSKSFD']}) (.str \"{q['modulation']}\") (.bool {B(q['phyFSKFECEnabled'])}) (.int {q['phyFSKFECScheme']}) (.int {q['macFCSType']}) (.bool {B(q['phyFSKScramblePSDU'])}) (.bool {B(q['phyFSKFECInterleavingRSC'])}) (.int {q['phyFSKPreambleLength']}) = .ok pO{i} := by decide +kernel\n")
    out.append(f"def afterO{i} : FskObj := ((fskBinary argO).call {{ params := pO{i} }}).2\n")
for i,f,e in [(1,'O.2.2','shr'),(1,'O.2.4','binarySignal'),(2,'O.3.2','shr'),(2,'O.3.3','phr'),(2,'O.3.5','binarySignal'),(3,'O.4.2','shr'),(3,'O.4.3','phr'),(3,'O.4.5','PHR_PSDU_encoded'),(3,'O.4.6','PHR_PSDU_interleaved'),(3,'O.4.7','PHR_PSDU_scrambled'),(3,'O.4.8','binarySignal'),(4,'O.5.1','shr'),(4,'O.5.2','phr'),(4,'O.5.4','PHR_PSDU_encoded'),(4,'O.5.5','PHR_PSDU_interleaved'),(4,'O.5.6','binarySignal'),(5,'O.6.1','shr'),(5,'O.6.2','phr'),(5,'O.6.4','binarySignal'),(6,'O.7.2','shr'),(6,'O.7.3','phr'),(6,'O.7.5','PHR_PSDU_encoded'),(6,'O.7.6','PHR_PSDU_interleaved'),(6,'O.7.7','PHR_PSDU_scrambled'),(6,'O.7.8','binarySignal')]:
    v=bits(col(f+'.csv'))
    if e=='shr': s=f"pO{i}.shr = {v}"
    elif e=='phr': s=f"pO{i}.phr (bitsO.length / 8) = .ok ({v})"
    else: s=f"afterO{i}.{e} = some ({v})"
    out.append(f"/-- {f} -/\nexample : {s} := by decide +kernel\n")
out.append("end SunPhy.Tables")
open('/verif/lean/Verif/Tables.lean','w').write("\n".join(out)+"\n")
