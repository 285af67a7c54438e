#!/usr/bin/env python3
"""Writes AXIOMS.txt: the axioms of every theorem named in MANIFEST.json. Run after `lake build`."""
import json, subprocess, os, re
root = os.path.dirname(os.path.dirname(os.path.abspath(__file__)))
ths = sorted({t for c in json.load(open(root + '/MANIFEST.json'))['claims'] for t in c['theorems']})
src = '/tmp/axioms_check.lean'
open(src, 'w').write('import Verif\n' + ''.join('#print axioms %s\n' % t for t in ths))
out = subprocess.run(['lake', 'env', 'lean', src], cwd=root + '/lean', capture_output=True, text=True).stdout
out = re.sub(r'^.*?: info: ', '', out, flags=re.M).replace('\n ', ' ')
open(root + '/AXIOMS.txt', 'w').write(out)
print(len(ths), 'theorems')
