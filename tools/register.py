"""Append properties: reads a JSON list of {property, design, note?} from a file."""
import json, sys
P = json.load(open(sys.argv[1]))
known = {json.loads(l)['id'] for l in open('/verif/properties.jsonl')}
design = open('/verif/DESIGN.md').read()
notes = json.load(open('/verif/tools/notes.json'))
with open('/verif/properties.jsonl', 'a') as f:
    for p in P:
        q = p['property']
        assert q['id'] not in known, q['id']
        assert set(q) == {'id', 'title', 'statement', 'quantifier', 'why_tests_cant', 'anchors'}
        f.write(json.dumps(q, ensure_ascii=False) + '\n')
        prev = 'C%02d' % (int(q['id'][1:]) - 1)
        i = design.index('| %s |' % prev); j = design.index('\n', i)
        design = design[:j] + '\n| %s | %s |' % (q['id'], p['design']) + design[j:]
        if 'note' in p: notes[q['id']] = p['note']
open('/verif/DESIGN.md', 'w').write(design)
json.dump(notes, open('/verif/tools/notes.json', 'w'), indent=1, ensure_ascii=False)
