#!/usr/bin/env python3
"""Writes AXIOMS.txt: for every theorem named in MANIFEST.json the axioms it depends on."""
import json, subprocess, re, os, tempfile
os.chdir('/verif/lean')
ths=[t for c in json.load(open('/verif/MANIFEST.json'))['claims'] for t in c['theorems']]
src="import Verif\n"+"\n".join("#print axioms %s"%t for t in ths)
fn=tempfile.mktemp(suffix='.lean'); open(fn,'w').write(src)
out=subprocess.run(['lake','env','lean',fn],capture_output=True,text=True).stdout
out=re.sub(r'\n\s+',' ',out)
open('/verif/AXIOMS.txt','w').write("\n".join(re.sub(r'^.*?: ?info: ?','',l) for l in out.splitlines())+"\n")
